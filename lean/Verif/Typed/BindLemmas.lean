import Verif.Typed.ExactLemmas
/-!
# Lemmas: what documents with the same typed data have in common
-/
namespace Typed

theorem alike_obj {pb : Bytes → Option Int} {l l' : List (Bytes × J)} (h : Alike pb (.obj l) (.obj l')) :
    (∀ k, (KV.get l k).isSome = (KV.get l' k).isSome) ∧
    ∀ k v v', KV.get l k = some v → KV.get l' k = some v' → Alike pb v v' := by
  cases h with
  | int _ _ _ h _ => rcases h with h | ⟨_, h, _⟩ <;> cases h
  | obj _ _ hk h => exact ⟨hk, h⟩

theorem typedBytes_some {E : Env} {d : List (Bytes × J)} {x : Bytes} (h : typedBytes E d = some x) :
    hasMsgs d = true ∧ ∃ cid ts flat, chainOf E d = some cid ∧ wrap d = some (ts, flat) ∧
      rawData E.hash E.number ts (domainOf cid) (txt "Tx") flat = some x := by
  unfold typedBytes at h
  split at h
  · cases h
  · rename_i hm
    rw [Bool.not_eq_false] at hm
    split at h
    · rename_i cid ts flat h1 h2
      exact ⟨hm, cid, ts, flat, h1, h2, h⟩
    · cases h

theorem made_some {ts : Types} {i : Nat} (h : Made ts i) : (KV.get ts (txt "Tx")).isSome = true := by
  obtain ⟨F, hF, _⟩ := h.tx
  rw [hF]; rfl

theorem made_names {ts : Types} {i : Nat} (h : Made ts i) :
    (fieldsOf ts (txt "Tx")).map Field.name = txFields.map Field.name ++ (List.range i).map msgField ∧
    txFields <+: fieldsOf ts (txt "Tx") := by
  obtain ⟨F, hF, hn, hp⟩ := h.tx
  have : fieldsOf ts (txt "Tx") = F := by unfold fieldsOf; rw [hF]; rfl
  rw [this]
  exact ⟨hn, hp⟩

theorem tx_trim : trim (txt "Tx") = txt "Tx" := by decide +kernel

theorem tx_clean : Clean (txt "Tx") := by
  intro c hc
  have h : (txt "Tx").all (fun c => decide (c ≠ 0x20 ∧ c ≠ 0x28 ∧ c ≠ 0x29 ∧ c ≠ 0x2c)) = true := by decide
  exact of_decide_eq_true (List.all_eq_true.1 h c hc)

theorem typed_alike {E : Env} (hn : NoCollision E.hash) (hw : Wide E.hash) {d d' : List (Bytes × J)} {x : Bytes}
    (ho : Orderly d) (ho' : Orderly d') (h : typedBytes E d = some x) (h' : typedBytes E d' = some x) :
    Alike E.number (.obj d) (.obj d') := by
  obtain ⟨hm, cid, ts, flat, _, hwr, hr⟩ := typedBytes_some h
  obtain ⟨hm', cid', ts', flat', _, hwr', hr'⟩ := typedBytes_some h'
  obtain ⟨ms, g, made, a1, a2⟩ := wrap_spec hwr hm ho
  obtain ⟨ms', g', made', a1', a2'⟩ := wrap_spec hwr' hm' ho'
  obtain ⟨hf, hal⟩ := rawData_binds hn hw made.clean made'.clean tx_trim tx_clean (made_some made) (made_some made') hr hr'
  have hlen : ms.length = ms'.length := by
    have e := congrArg List.length ((made_names made).1.symm.trans ((congrArg (List.map Field.name) hf).trans (made_names made').1))
    rw [List.length_append, List.length_append, List.length_map, List.length_map, List.length_map,
      List.length_range, List.length_range] at e
    omega
  obtain ⟨hk, hv⟩ := alike_obj hal
  have split : ∀ k, k = txt "msgs" ∨ (∃ j, j < ms.length ∧ k = msgField j) ∨
      (KV.get flat k = KV.get d k ∧ KV.get flat' k = KV.get d' k) := by
    intro k
    by_cases h1 : k = txt "msgs"
    · exact .inl h1
    · by_cases h2 : ∃ j, j < ms.length ∧ k = msgField j
      · exact .inr (.inl h2)
      · exact .inr (.inr ⟨a1 k h1 (fun j hj he => h2 ⟨j, hj, he⟩), a1' k h1 (fun j hj he => h2 ⟨j, by omega, he⟩)⟩)
  have gone : ∀ j, j < ms.length → KV.get d (msgField j) = none ∧ KV.get d' (msgField j) = none := by
    intro j hj
    exact ⟨(a2 j _ (List.getElem?_eq_getElem hj)).2, (a2' j _ (List.getElem?_eq_getElem (by omega))).2⟩
  refine .obj _ _ ?_ ?_
  · intro k
    rcases split k with rfl | ⟨j, hj, rfl⟩ | ⟨e, e'⟩
    · rw [g, g']; rfl
    · rw [(gone j hj).1, (gone j hj).2]
    · rw [← e, ← e']; exact hk k
  · intro k v v' hkv hkv'
    rcases split k with rfl | ⟨j, hj, rfl⟩ | ⟨e, e'⟩
    · rw [g] at hkv
      rw [g'] at hkv'
      cases hkv
      cases hkv'
      refine .arr _ _ hlen ?_
      intro i u u' hu hu'
      exact hv _ _ _ (a2 i u hu).1 (a2' i u' hu').1
    · rw [(gone j hj).1] at hkv
      cases hkv
    · rw [← e] at hkv
      rw [← e'] at hkv'
      exact hv k v v' hkv hkv'

/-- The older form. -/
theorem oldBytes_some {E : Env} {payer : Bytes} {d : List (Bytes × J)} {x : Bytes} (h : oldBytes E payer d = some x) :
    ∃ cid d2 ts f, KV.get d (txt "fee") = some (.obj f) ∧
      d2 = replace (txt "fee") (.obj (KV.set f (txt "feePayer") (.str payer))) d ∧ E.reflect d = some ts ∧
      rawData E.hash E.number (KV.set ts (txt "Fee") oldFeeFields) (domainOf cid) (txt "Tx") d2 = some x := by
  unfold oldBytes at h
  split at h
  · cases h
  · split at h
    · rename_i cid d2 ts h1 h2 h3
      unfold withPayer at h2
      split at h2
      · rename_i f hf
        exact ⟨cid, d2, ts, f, hf, (Option.some.inj h2).symm, h3, h⟩
      · cases h2
    · cases h

theorem get_replace {k k' : Bytes} {v : J} {d : List (Bytes × J)} (h : (KV.get d k).isSome = true) :
    KV.get (replace k v d) k' = if k' = k then some v else KV.get d k' := by
  induction d with
  | nil => rw [KV.get_nil] at h; cases h
  | cons e d ih =>
    unfold replace
    by_cases he : e.1 = k
    · rw [if_pos he, KV.get_cons, KV.get_cons]
      by_cases hk : k' = k
      · rw [if_pos hk, if_pos hk.symm]
      · rw [if_neg hk, if_neg (fun hh => hk hh.symm), if_neg (fun hh => hk (hh.symm.trans he))]
    · rw [if_neg he, KV.get_cons, KV.get_cons]
      rw [KV.get_cons, if_neg he] at h
      rw [ih h]
      by_cases h1 : e.1 = k'
      · rw [if_pos h1, if_neg (fun hh => he (h1.trans hh)), if_pos h1]
      · rw [if_neg h1, if_neg h1]

theorem oldTable {E : Env} (hE : E.Good) {d : List (Bytes × J)} {ts : Types} (h : E.reflect d = some ts) :
    CleanTable (KV.set ts (txt "Fee") oldFeeFields) ∧
    KV.get (KV.set ts (txt "Fee") oldFeeFields) (txt "Tx") = some oldTxFields ∧
    fieldsOf (KV.set ts (txt "Fee") oldFeeFields) (txt "Tx") = oldTxFields ∧
    KV.get (KV.set ts (txt "Fee") oldFeeFields) (txt "Fee") = some oldFeeFields := by
  obtain ⟨h1, h2⟩ := hE.table d ts h
  have g : KV.get (KV.set ts (txt "Fee") oldFeeFields) (txt "Tx") = some oldTxFields := by
    rw [KV.get_set, if_neg (by decide)]
    exact h2
  refine ⟨?_, g, by unfold fieldsOf; rw [g]; rfl, by rw [KV.get_set, if_pos rfl]⟩
  intro e he
  rcases KV.mem_set.1 he with rfl | ⟨he, _⟩
  · have h : (decide (oldFeeFields.map Field.name).Nodup &&
        oldFeeFields.all (fun f => f.name.all (fun c => decide (c ≠ 0x20 ∧ c ≠ 0x28 ∧ c ≠ 0x29 ∧ c ≠ 0x2c)))) = true := by
      decide +kernel
    rw [Bool.and_eq_true, decide_eq_true_iff] at h
    refine ⟨h.1, ?_⟩
    intro f hf c hc
    exact of_decide_eq_true (List.all_eq_true.1 (List.all_eq_true.1 h.2 f hf) c hc)
  · exact h1 e he

theorem old_alike {E : Env} (hE : E.Good) {payer payer' : Bytes} {d d' : List (Bytes × J)} {x : Bytes}
    (hp : NoFeePayer d) (hp' : NoFeePayer d') (h : oldBytes E payer d = some x) (h' : oldBytes E payer' d' = some x) :
    payer = payer' ∧ Alike E.number (.obj d) (.obj d') := by
  obtain ⟨cid, d2, ts, f, hf, rfl, ht, hr⟩ := oldBytes_some h
  obtain ⟨cid', d2', ts', f', hf', rfl, ht', hr'⟩ := oldBytes_some h'
  obtain ⟨c, g, fo, fe⟩ := oldTable hE ht
  obtain ⟨c', g', fo', fe'⟩ := oldTable hE ht'
  have some1 : (KV.get d (txt "fee")).isSome = true := by rw [hf]; rfl
  have some2 : (KV.get d' (txt "fee")).isSome = true := by rw [hf']; rfl
  obtain ⟨_, hal⟩ := rawData_binds hE.noCollision hE.wide c c' tx_trim tx_clean (by rw [g]; rfl) (by rw [g']; rfl) hr hr'
  obtain ⟨n, n', y, y1, y2⟩ := rawData_hash hE.wide hr hr'
  obtain ⟨q, q', z, z1, z2⟩ := field_obj hE.noCollision hE.wide y1 y2 (fo.trans fo'.symm) (k := txt "fee") (t := txt "Fee")
    (by rw [fo]; decide +kernel) (by rw [get_replace some1, if_pos rfl]) (by rw [get_replace some2, if_pos rfl])
    (by rw [fe]; rfl) (by rw [fe']; rfl) (by decide)
  have ff : fieldsOf (KV.set ts (txt "Fee") oldFeeFields) (txt "Fee") = oldFeeFields := by unfold fieldsOf; rw [fe]; rfl
  have ff' : fieldsOf (KV.set ts' (txt "Fee") oldFeeFields) (txt "Fee") = oldFeeFields := by unfold fieldsOf; rw [fe']; rfl
  refine ⟨field_str hE.noCollision hE.wide z1 z2 (ff.trans ff'.symm) (k := txt "feePayer")
    (by rw [ff]; exact List.mem_cons_self) (by rw [KV.get_set, if_pos rfl]) (by rw [KV.get_set, if_pos rfl]), ?_⟩
  obtain ⟨hk, hv⟩ := alike_obj hal
  refine .obj _ _ ?_ ?_
  · intro k
    have := hk k
    rw [get_replace some1, get_replace some2] at this
    by_cases he : k = txt "fee"
    · rw [he, some1, some2]
    · rw [if_neg he, if_neg he] at this
      exact this
  · intro k v v' hkv hkv'
    by_cases he : k = txt "fee"
    · subst he
      rw [hf] at hkv
      rw [hf'] at hkv'
      cases hkv
      cases hkv'
      have hfee := hv (txt "fee") _ _ (by rw [get_replace some1, if_pos rfl]) (by rw [get_replace some2, if_pos rfl])
      obtain ⟨b1, b2⟩ := alike_obj hfee
      refine .obj _ _ ?_ ?_
      · intro k
        by_cases hq : k = txt "feePayer"
        · rw [hq, hp f hf, hp' f' hf']
        · have := b1 k
          rw [KV.get_set, KV.get_set, if_neg hq, if_neg hq] at this
          exact this
      · intro k v v' h1 h2
        by_cases hq : k = txt "feePayer"
        · rw [hq, hp f hf] at h1
          cases h1
        · exact b2 k v v' (by rw [KV.get_set, if_neg hq]; exact h1) (by rw [KV.get_set, if_neg hq]; exact h2)
    · refine hv k v v' ?_ ?_
      · rw [get_replace some1, if_neg he]; exact hkv
      · rw [get_replace some2, if_neg he]; exact hkv'

/-- The two forms never meet: the fifth field of a transaction is another. -/
theorem forms_apart {E : Env} (hE : E.Good) {payer : Bytes} {d d' : List (Bytes × J)} {x : Bytes} (ho : Orderly d)
    (h : typedBytes E d = some x) (h' : oldBytes E payer d' = some x) : False := by
  obtain ⟨hm, cid, ts, flat, _, hwr, hr⟩ := typedBytes_some h
  obtain ⟨ms, g, made, a1, a2⟩ := wrap_spec hwr hm ho
  obtain ⟨cid', d2', ts', f', hf', rfl, ht', hr'⟩ := oldBytes_some h'
  obtain ⟨c', g', fo', fe'⟩ := oldTable hE ht'
  obtain ⟨hf, _⟩ := rawData_binds hE.noCollision hE.wide made.clean c' tx_trim tx_clean (made_some made)
    (by rw [g']; rfl) hr hr'
  obtain ⟨r, hr⟩ := (made_names made).2
  rw [hf, fo'] at hr
  have := congrArg (fun l : List Field => (l[4]?).map Field.name) hr
  have e : ((txFields ++ r)[4]?).map Field.name = some (txt "sequence") := rfl
  rw [e] at this
  exact absurd this (by decide)

/-- Typed data begins with 0x19. -/
theorem rawData_head {K : Bytes → Option Bytes} {pb : Bytes → Option Int} {ts : Types} {dom data : List (Bytes × J)}
    {p x : Bytes} (h : rawData K pb ts dom p data = some x) : x.head? = some 0x19 := by
  unfold rawData at h
  split at h
  · cases h
  · split at h
    · cases h; rfl
    · cases h

theorem coin_orderly (c : Bytes × Nat) : Canon (coinJson c) ∧ CleanKeys (coinJson c) := by
  constructor
  · refine .obj _ ?_ ?_
    · exact List.pairwise_cons.2 ⟨fun e he => by
        rw [List.mem_singleton.1 he]
        first
        | exact (by decide : ble (txt "denom") (txt "amount") = false)
        | exact (by decide : ble (txt "gas") (txt "amount") = false), List.pairwise_singleton _ _⟩
    · intro k v h
      rcases List.mem_cons.1 h with h | h
      · cases h; exact .str _
      · cases List.mem_singleton.1 h; exact .str _
  · refine .obj _ ?_ ?_
    · intro k v h
      rcases List.mem_cons.1 h with h | h
      · cases h; unfold Clean; decide +kernel
      · cases List.mem_singleton.1 h; unfold Clean; decide +kernel
    · intro k v h
      rcases List.mem_cons.1 h with h | h
      · cases h; exact .str _
      · cases List.mem_singleton.1 h; exact .str _

theorem stdDoc_orderly {chainId memo : Bytes} {account sequence gas : Nat} {amount : List (Bytes × Nat)} {msgs : List J}
    (hm : GoodMsgs msgs) : Orderly (stdDoc chainId account sequence 0 amount gas msgs memo) := by
  have fee : Canon (.obj (feeJson amount gas)) ∧ CleanKeys (.obj (feeJson amount gas)) := by
    constructor
    · refine .obj _ ?_ ?_
      · exact List.pairwise_cons.2 ⟨fun e he => by
        rw [List.mem_singleton.1 he]
        first
        | exact (by decide : ble (txt "denom") (txt "amount") = false)
        | exact (by decide : ble (txt "gas") (txt "amount") = false), List.pairwise_singleton _ _⟩
      · intro k v h
        rcases List.mem_cons.1 h with h | h
        · cases h
          refine .arr _ ?_
          intro v hv
          obtain ⟨c, _, rfl⟩ := List.mem_map.1 hv
          exact (coin_orderly c).1
        · cases List.mem_singleton.1 h; exact .str _
    · refine .obj _ ?_ ?_
      · intro k v h
        rcases List.mem_cons.1 h with h | h
        · cases h; unfold Clean; decide +kernel
        · cases List.mem_singleton.1 h; unfold Clean; decide +kernel
      · intro k v h
        rcases List.mem_cons.1 h with h | h
        · cases h
          refine .arr _ ?_
          intro v hv
          obtain ⟨c, _, rfl⟩ := List.mem_map.1 hv
          exact (coin_orderly c).2
        · cases List.mem_singleton.1 h; exact .str _
  have vals : ∀ k v, (k, v) ∈ stdDoc chainId account sequence 0 amount gas msgs memo → Canon v ∧ CleanKeys v := by
    intro k v h
    unfold stdDoc at h
    rw [if_pos rfl, List.append_nil] at h
    rcases List.mem_cons.1 h with h | h
    · cases h; exact ⟨.str _, .str _⟩
    rcases List.mem_cons.1 h with h | h
    · cases h; exact ⟨.str _, .str _⟩
    rcases List.mem_cons.1 h with h | h
    · cases h; exact fee
    rcases List.mem_cons.1 h with h | h
    · cases h; exact ⟨.str _, .str _⟩
    rcases List.mem_cons.1 h with h | h
    · cases h; exact ⟨.arr _ (fun m hmm => (hm m hmm).1), .arr _ (fun m hmm => (hm m hmm).2)⟩
    · cases List.mem_singleton.1 h; exact ⟨.str _, .str _⟩
  have keys : (stdDoc chainId account sequence 0 amount gas msgs memo).map (·.1) =
      [txt "account_number", txt "chain_id", txt "fee", txt "memo", txt "msgs", txt "sequence"] := rfl
  constructor
  · refine .obj _ ?_ (fun k v h => (vals k v h).1)
    have : ((stdDoc chainId account sequence 0 amount gas msgs memo).map (·.1)).Pairwise (fun a b => ble b a = false) := by
      rw [keys]; decide +kernel
    rwa [List.pairwise_map] at this
  · refine .obj _ ?_ (fun k v h => (vals k v h).2)
    intro k v h
    have hk : k ∈ (stdDoc chainId account sequence 0 amount gas msgs memo).map (·.1) := List.mem_map.2 ⟨_, h, rfl⟩
    rw [keys] at hk
    have : ∀ k ∈ [txt "account_number", txt "chain_id", txt "fee", txt "memo", txt "msgs", txt "sequence"], Clean k := by
      unfold Clean; decide +kernel
    exact this k hk

theorem docOf_some {s : SignDoc} {d : List (Bytes × J)} (h : docOf s = some d) :
    s.timeout = 0 ∧ s.options = 0 ∧ s.nonCritical = 0 ∧ ∃ i, s.signers = [i] ∧
      d = stdDoc s.chainId s.account i.sequence 0 s.amount s.gas s.msgs s.memo := by
  unfold docOf at h
  split at h
  · cases h
  · rename_i hn
    have h1 : s.timeout = 0 := Decidable.byContradiction fun hh => hn (.inl hh)
    have h2 : s.options = 0 := Decidable.byContradiction fun hh => hn (.inr (.inl hh))
    have h3 : s.nonCritical = 0 := Decidable.byContradiction fun hh => hn (.inr (.inr hh))
    split at h
    · rename_i i hi
      rw [h1] at h
      exact ⟨h1, h2, h3, i, hi, (Option.some.inj h).symm⟩
    · cases h

end Typed
