import Verif.Typed.Toy
/-!
# What a signature over typed data fixes

A signature made by an Ethereum wallet over the typed data of a Cosmos transaction is taken for one order only: the bytes
that are hashed and signed belong to no document that says something else.
-/
namespace Typed

/-- The fields of a document that are text. -/
def plainKeys : List Bytes := [txt "account_number", txt "chain_id", txt "memo", txt "sequence"]

/-- Two documents with the same typed data are alike: the same messages with the same fields and values, the same fee and
memo, for the same chain, account and sequence.  The top-level texts agree letter by letter. -/
theorem typed_binds {E : Env} (hn : NoCollision E.hash) (hw : Wide E.hash) {d d' : List (Bytes × J)} {x : Bytes}
    (ho : Orderly d) (ho' : Orderly d') (h : typedBytes E d = some x) (h' : typedBytes E d' = some x) :
    Alike E.number (.obj d) (.obj d') ∧
    ∀ k ∈ plainKeys, ∀ s s', KV.get d k = some (.str s) → KV.get d' k = some (.str s') → s = s' := by
  refine ⟨typed_alike hn hw ho ho' h h', ?_⟩
  intro k hk s s' hs hs'
  obtain ⟨hm, cid, ts, flat, _, hwr, hr⟩ := typedBytes_some h
  obtain ⟨hm', cid', ts', flat', _, hwr', hr'⟩ := typedBytes_some h'
  obtain ⟨ms, g, made, a1, a2⟩ := wrap_spec hwr hm ho
  obtain ⟨ms', g', made', a1', a2'⟩ := wrap_spec hwr' hm' ho'
  obtain ⟨hf, _⟩ := rawData_binds hn hw made.clean made'.clean tx_trim tx_clean (made_some made) (made_some made') hr hr'
  obtain ⟨n, n', y, y1, y2⟩ := rawData_hash hw hr hr'
  have key : ∀ k ∈ plainKeys, k ≠ txt "msgs" ∧ (⟨k, txt "string"⟩ : Field) ∈ txFields := by decide +kernel
  obtain ⟨k1, k2⟩ := key k hk
  have k3 : ∀ j, k ≠ msgField j := by
    intro j hj
    exact msgField_not_tx j (hj ▸ List.mem_map.2 ⟨_, k2, rfl⟩)
  exact field_str hn hw y1 y2 hf ((made_names made).2.subset k2) (by rw [a1 k k1 (fun j _ => k3 j)]; exact hs)
    (by rw [a1' k k1 (fun j _ => k3 j)]; exact hs')


example : Orderly (toyDoc (.num 2)) ∧ Orderly (toyDoc (.str (txt "2"))) ∧ NoCollision toyEnv.hash ∧ Wide toyEnv.hash ∧
    (typedBytes toyEnv (toyDoc (.num 2))).isSome = true ∧
    typedBytes toyEnv (toyDoc (.num 2)) = typedBytes toyEnv (toyDoc (.str (txt "2"))) ∧
    typedBytes toyEnv (toyDoc (.num 2)) ≠ typedBytes toyEnv (toyDoc (.num 3)) :=
  ⟨toyDoc_orderly _ (.num _) (.num _), toyDoc_orderly _ (.str _) (.str _), toy_noCollision, toy_wide, by decide +kernel,
    by decide +kernel, by decide +kernel⟩

/-- They need not be the same: a list that begins with a number takes text for a number too, so that `[1, 2]` and
`[1, "2"]` share their typed data. -/
theorem mixed_lists_confused : ∃ (E : Env) (d d' : List (Bytes × J)), E.Good ∧ Orderly d ∧ Orderly d' ∧ d ≠ d' ∧
    (typedBytes E d).isSome = true ∧ typedBytes E d = typedBytes E d' := by
  refine ⟨toyEnv, toyDoc (.num 2), toyDoc (.str (txt "2")), toy_good, toyDoc_orderly _ (.num _) (.num _),
    toyDoc_orderly _ (.str _) (.str _), ?_, by decide +kernel, by decide +kernel⟩
  intro h
  have h1 : KV.get (toyDoc (.num 2)) (txt "msgs") = some (.arr [toyMsg (.num 2)]) := rfl
  rw [h] at h1
  have h2 : KV.get (toyDoc (.str (txt "2"))) (txt "msgs") = some (.arr [toyMsg (.str (txt "2"))]) := rfl
  rw [h2] at h1
  unfold toyMsg at h1
  simp at h1

/-- Without text that stands for a number, documents with the same typed data are the same. -/
theorem typed_exact {E : Env} (hn : NoCollision E.hash) (hw : Wide E.hash) {d d' : List (Bytes × J)} {x : Bytes}
    (ho : Orderly d) (ho' : Orderly d') (h : typedBytes E d = some x) (h' : typedBytes E d' = some x)
    (hs : typedBytes { E with number := fun _ => none } d ≠ none)
    (hs' : typedBytes { E with number := fun _ => none } d' ≠ none) : d = d' := by
  have strict : ∀ {d : List (Bytes × J)} {x : Bytes}, typedBytes E d = some x →
      typedBytes { E with number := fun _ => none } d ≠ none →
      typedBytes { E with number := fun _ => none } d = some x := by
    intro d x h hs
    obtain ⟨y, hy⟩ := Option.ne_none_iff_exists'.1 hs
    have e : typedBytes E d = some y := by
      obtain ⟨hm, cid, ts, flat, hc, hwr, hr⟩ := typedBytes_some hy
      unfold typedBytes
      have hc : chainOf E d = some cid := hc
      rw [if_neg (by rw [hm]; decide), hc, hwr]
      exact rawData_mono hr
    rw [h] at e
    rw [hy, e]
  have al := typed_alike (E := { E with number := fun _ => none }) hn hw ho ho' (strict h hs) (strict h' hs')
  have := alike_eq al ho.1 ho'.1
  cases this
  rfl


example : typedBytes { toyEnv with number := fun _ => none } (toyDoc (.num 3)) ≠ none ∧
    typedBytes { toyEnv with number := fun _ => none } (toyDoc (.num 3)) = typedBytes toyEnv (toyDoc (.num 3)) ∧
    typedBytes { toyEnv with number := fun _ => none } (toyDoc (.str (txt "2"))) = none := by
  refine ⟨by decide +kernel, by decide +kernel, by decide +kernel⟩

/-- A document with typed data has no other fields than those that the typed data covers, and its fee has none but the
amount and the gas: a document with a timeout, a tip, a payer or a granter has no typed data. -/
theorem only_known_fields {E : Env} {d : List (Bytes × J)} {x : Bytes} (ho : Orderly d)
    (h : typedBytes E d = some x) :
    (∀ k v, KV.get d k = some v → k ∈ plainKeys ∨ k = txt "fee" ∨ k = txt "msgs") ∧
    ∃ f, KV.get d (txt "fee") = some (.obj f) ∧ ∀ k v, KV.get f k = some v → k = txt "amount" ∨ k = txt "gas" := by
  obtain ⟨hm, cid, ts, flat, _, hwr, hr⟩ := typedBytes_some h
  obtain ⟨ms, g, made, a1, a2⟩ := wrap_spec hwr hm ho
  obtain ⟨c1, c2⟩ := rawData_covers made.clean hr
  have names := (made_names made).1
  constructor
  · intro k v hk
    by_cases hms : k = txt "msgs"
    · exact .inr (.inr hms)
    · by_cases hj : ∃ j, j < ms.length ∧ k = msgField j
      · obtain ⟨j, hj, rfl⟩ := hj
        rw [(a2 j _ (List.getElem?_eq_getElem hj)).2] at hk
        cases hk
      · have hk' : KV.get flat k = some v := by
          rw [a1 k hms (fun j h1 h2 => hj ⟨j, h1, h2⟩)]
          exact hk
        obtain ⟨f, hf, hfn⟩ := c1 k v hk'
        have : k ∈ txFields.map Field.name ++ (List.range ms.length).map msgField := by
          rw [← names]
          exact List.mem_map.2 ⟨f, hf, hfn⟩
        rcases List.mem_append.1 this with h1 | h1
        · have key : ∀ k ∈ txFields.map Field.name, k ∈ plainKeys ∨ k = txt "fee" := by decide +kernel
          rcases key k h1 with h | h
          · exact .inl h
          · exact .inr (.inl h)
        · obtain ⟨j, hj', hjk⟩ := List.mem_map.1 h1
          exact (hj ⟨j, List.mem_range.1 hj', hjk.symm⟩).elim
  · unfold rawData at hr
    split at hr
    · cases hr
    · split at hr
      · rename_i ds hh e1 e2
        unfold hashStruct at e2
        obtain ⟨ws, ge, _⟩ := structHash_some e2
        obtain ⟨m, th, fs, _, _, _, _, e⟩ := encData_some ge
        have hfee : (⟨txt "fee", txt "Fee"⟩ : Field) ∈ fieldsOf ts (txt "Tx") :=
          (made_names made).2.subset (by decide +kernel)
        obtain ⟨i, hi⟩ := List.mem_iff_getElem?.1 hfee
        obtain ⟨y, _, y2⟩ := allSome_get e i _ hi
        have b : KV.get baseTypes (txt "Fee") = some [⟨txt "amount", txt "Coin[]"⟩, ⟨txt "gas", txt "string"⟩] := by
          decide +kernel
        have gd : KV.get flat (txt "fee") = KV.get d (txt "fee") :=
          a1 _ (by decide) (fun j _ hj => msgField_not_tx j (hj ▸ (by decide +kernel)))
        obtain ⟨v, gv, cv⟩ := encField_get y2
        rcases cv with ⟨ha, _⟩ | ⟨_, cv⟩
        · exact absurd ha (by decide)
        · unfold encOne at cv
          rw [if_pos (by rw [made.fee, b]; rfl)] at cv
          split at cv
          · rename_i f
            refine ⟨f, by rw [← gd]; exact gv, ?_⟩
            obtain ⟨ws', ge', _⟩ := structHash_some cv
            obtain ⟨m', th', fs', _, _, hl, _, e'⟩ := encData_some ge'
            intro k u hk
            obtain ⟨q, hq, hqk⟩ := keys_covered made.clean hl (fun q hq => by
              obtain ⟨i, hi⟩ := List.mem_iff_getElem?.1 hq
              obtain ⟨_, _, y2⟩ := allSome_get e' i _ hi
              obtain ⟨_, gq, _⟩ := encField_get y2
              rw [gq]; rfl) k u hk
            have ff : fieldsOf ts (txt "Fee") = [⟨txt "amount", txt "Coin[]"⟩, ⟨txt "gas", txt "string"⟩] := by
              unfold fieldsOf; rw [made.fee, b]; rfl
            rw [ff] at hq
            rcases List.mem_cons.1 hq with rfl | hq
            · exact .inl hqk.symm
            · rw [List.mem_singleton.1 hq] at hqk
              exact .inr hqk.symm
          · cases cv
      · cases hr


/-- So a document with a timeout has no typed data, whatever the hash. -/
example (E : Env) (v : J) (hc : Canon v) (hk : CleanKeys v) (t : Bytes) :
    typedBytes E (toyDoc v ++ [(txt "timeout_height", .str t)]) = none := by
  cases h : typedBytes E (toyDoc v ++ [(txt "timeout_height", .str t)]) with
  | none => rfl
  | some x =>
    have g : KV.get (toyDoc v ++ [(txt "timeout_height", .str t)]) (txt "timeout_height") = some (.str t) := rfl
    have o := toyDoc_orderly v hc hk
    have o' : Orderly (toyDoc v ++ [(txt "timeout_height", .str t)]) := by
      constructor
      · cases o.1 with
        | obj _ hs hv =>
        refine .obj _ ?_ ?_
        · refine List.pairwise_append.2 ⟨hs, List.pairwise_singleton _ _, ?_⟩
          intro a ha b hb
          rw [List.mem_singleton.1 hb]
          have key : ∀ a ∈ [txt "account_number", txt "chain_id", txt "fee", txt "memo", txt "msgs", txt "sequence"],
            ble (txt "timeout_height") a = false := by decide +kernel
          exact key a.1 (List.mem_map.2 ⟨a, ha, rfl⟩ : a.1 ∈ (toyDoc v).map (·.1))
        · intro k u hu
          rcases List.mem_append.1 hu with hu | hu
          · exact hv k u hu
          · cases List.mem_singleton.1 hu; exact .str _
      · cases o.2 with
        | obj _ hs hv =>
        refine .obj _ ?_ ?_
        · intro k u hu
          rcases List.mem_append.1 hu with hu | hu
          · exact hs k u hu
          · cases List.mem_singleton.1 hu; unfold Clean; decide +kernel
        · intro k u hu
          rcases List.mem_append.1 hu with hu | hu
          · exact hv k u hu
          · cases List.mem_singleton.1 hu; exact .str _
    have := (only_known_fields o' h).1 _ _ g
    exact absurd this (by decide +kernel)

/-- The older form binds as well, and also the account that pays. -/
theorem old_binds {E : Env} (hE : E.Good) {payer payer' : Bytes} {d d' : List (Bytes × J)} {x : Bytes}
    (hp : NoFeePayer d) (hp' : NoFeePayer d') (h : oldBytes E payer d = some x) (h' : oldBytes E payer' d' = some x) :
    payer = payer' ∧ Alike E.number (.obj d) (.obj d') := old_alike hE hp hp' h h'


example : toyEnv.Good ∧ NoFeePayer (toyDoc (.num 2)) ∧ (oldBytes toyEnv (txt "p") (toyDoc (.num 2))).isSome = true ∧
    (oldBytes toyEnv (txt "q") (toyDoc (.num 2))).isSome = true ∧
    oldBytes toyEnv (txt "p") (toyDoc (.num 2)) ≠ oldBytes toyEnv (txt "q") (toyDoc (.num 2)) := by
  refine ⟨toy_good, ?_, by decide +kernel, by decide +kernel, by decide +kernel⟩
  intro f hf
  have : KV.get (toyDoc (.num 2)) (txt "fee") = some (.obj (feeJson [(txt "ahelios", 5)] 21000)) := rfl
  rw [this] at hf
  cases hf
  rfl

/-- The three forms of what may be signed: a string that is one of them for two transactions belongs to the same bytes to
sign or to alike documents.  (Bytes to sign never begin with 0x19: JSON begins with a brace and a `SignDoc` with 0x0a.) -/
theorem one_signature_one_order {E : Env} (hE : E.Good) {payer payer' raw raw' x : Bytes} {d d' : List (Bytes × J)}
    (ho : Orderly d) (ho' : Orderly d') (hp : NoFeePayer d) (hp' : NoFeePayer d')
    (hraw : raw.head? ≠ some 0x19) (hraw' : raw'.head? ≠ some 0x19)
    (h : x ∈ forms E payer raw d) (h' : x ∈ forms E payer' raw' d') :
    raw = raw' ∨ Alike E.number (.obj d) (.obj d') := by
  have kinds : ∀ {payer raw : Bytes} {d : List (Bytes × J)}, x ∈ forms E payer raw d →
      x = raw ∨ typedBytes E d = some x ∨ oldBytes E payer d = some x := by
    intro payer raw d h
    unfold forms at h
    rcases List.mem_cons.1 h with h | h
    · exact .inl h
    · split at h
      · cases h
      · rename_i u hu
        rcases List.mem_cons.1 h with h | h
        · exact .inr (.inl (h ▸ hu))
        · split at h
          · cases h
          · rename_i w hw
            exact .inr (.inr (List.mem_singleton.1 h ▸ hw))
  have starts : ∀ {d : List (Bytes × J)}, typedBytes E d = some x → x.head? = some 0x19 := by
    intro d h
    obtain ⟨_, _, _, _, _, _, hr⟩ := typedBytes_some h
    exact rawData_head hr
  have starts' : ∀ {payer : Bytes} {d : List (Bytes × J)}, oldBytes E payer d = some x → x.head? = some 0x19 := by
    intro payer d h
    obtain ⟨_, _, _, _, _, _, _, hr⟩ := oldBytes_some h
    exact rawData_head hr
  rcases kinds h with h | h | h <;> rcases kinds h' with h' | h' | h'
  · exact .inl (h.symm.trans h')
  · exact absurd (h ▸ starts h') hraw
  · exact absurd (h ▸ starts' h') hraw
  · exact absurd (h' ▸ starts h) hraw'
  · exact .inr (typed_alike hE.noCollision hE.wide ho ho' h h')
  · exact (forms_apart hE ho h h').elim
  · exact absurd (h' ▸ starts' h) hraw'
  · exact (forms_apart hE ho' h' h).elim
  · exact .inr (old_alike hE hp hp' h h').2

example : (forms toyEnv (txt "p") [0x7b] (toyDoc (.num 2))).length = 3 := by decide +kernel

/-! ## Transactions signed in direct mode -/

/-- Two transactions in direct mode with the same typed data have the same chain, account, sequence, memo, fee and gas
limit, neither has a timeout or options, and their messages are alike.

What is missing for the full claim is that they are the same transaction: `granter_not_signed`. -/
theorem direct_binds_partial {E : Env} (hn : NoCollision E.hash) (hw : Wide E.hash) {s s' : SignDoc} {x : Bytes}
    (hg : GoodMsgs s.msgs) (hg' : GoodMsgs s'.msgs) (h : directBytes E s = some x) (h' : directBytes E s' = some x) :
    SameOrder E.number s s' := by
  unfold directBytes at h h'
  split at h
  · cases h
  · rename_i d hd
    split at h'
    · cases h'
    · rename_i d' hd'
      obtain ⟨t, o, nc, i, hi, rfl⟩ := docOf_some hd
      obtain ⟨t', o', nc', i', hi', rfl⟩ := docOf_some hd'
      have ho := stdDoc_orderly (chainId := s.chainId) (memo := s.memo) (account := s.account) (sequence := i.sequence)
        (gas := s.gas) (amount := s.amount) hg
      have ho' := stdDoc_orderly (chainId := s'.chainId) (memo := s'.memo) (account := s'.account)
        (sequence := i'.sequence) (gas := s'.gas) (amount := s'.amount) hg'
      obtain ⟨al, tx⟩ := typed_binds hn hw ho ho' h h'
      obtain ⟨hm, cid, ts, flat, _, hwr, hr⟩ := typedBytes_some h
      obtain ⟨hm', cid', ts', flat', _, hwr', hr'⟩ := typedBytes_some h'
      obtain ⟨ms, g, made, a1, a2⟩ := wrap_spec hwr hm ho
      obtain ⟨ms', g', made', a1', a2'⟩ := wrap_spec hwr' hm' ho'
      obtain ⟨hf, _⟩ := rawData_binds hn hw made.clean made'.clean tx_trim tx_clean (made_some made) (made_some made') hr hr'
      obtain ⟨n, n', y, y1, y2⟩ := rawData_hash hw hr hr'
      have notFee : ∀ j, txt "fee" ≠ msgField j := fun j hj => msgField_not_tx j (hj ▸ (by decide +kernel))
      have feeSome : (KV.get baseTypes (txt "Fee")).isSome = true := by decide +kernel
      obtain ⟨q, q', z, z1, z2⟩ := field_obj hn hw y1 y2 hf (k := txt "fee") (t := txt "Fee")
        (m := feeJson s.amount s.gas) (m' := feeJson s'.amount s'.gas)
        ((made_names made).2.subset (by decide +kernel))
        (by rw [a1 _ (by decide) (fun j _ => notFee j)]; rfl)
        (by rw [a1' _ (by decide) (fun j _ => notFee j)]; rfl)
        (by rw [made.fee]; exact feeSome) (by rw [made'.fee]; exact feeSome) (by decide)
      obtain ⟨fa, fg⟩ := fee_exact hn hw made made' z1 z2
      exact {
        chainId := tx (txt "chain_id") (by decide) _ _ rfl rfl
        account := Hyperion.dec_inj (tx (txt "account_number") (by decide) _ _ rfl rfl)
        sequence := by
          rw [hi, hi']
          exact congrArg (fun n => [n]) (Hyperion.dec_inj (tx (txt "sequence") (by decide) _ _ rfl rfl))
        memo := tx (txt "memo") (by decide) _ _ rfl rfl
        amount := fa
        gas := fg
        msgs := (alike_obj al).2 (txt "msgs") _ _ rfl rfl
        timeout := t.trans t'.symm
        options := ⟨o.trans o'.symm, nc.trans nc'.symm⟩ }


example : GoodMsgs (toyTx (.num 2)).msgs ∧ (directBytes toyEnv (toyTx (.num 2))).isSome = true ∧
    directBytes toyEnv (toyTx (.num 2)) = directBytes toyEnv (toyTx (.str (txt "2"))) :=
  ⟨toyMsg_good _ (.num _) (.num _), by decide +kernel, by decide +kernel⟩

/-- The typed data of a transaction in direct mode says nothing of who pays: the granter and the payer can be changed
without changing what is signed, for every transaction. -/
theorem granter_not_signed (E : Env) (s : SignDoc) (payer granter : Bytes) :
    directBytes E { s with payer := payer, granter := granter } = directBytes E s := rfl


/-- Whoever signs typed data of a transaction whose fee they pay signs at the same time for a transaction whose fee any
other account pays. -/
theorem anyone_can_be_charged {E : Env} {s : SignDoc} {x : Bytes} (h : directBytes E s = some x) (granter first : Bytes)
    (hg : granter ≠ []) : ∃ s', directBytes E s' = some x ∧ s'.msgs = s.msgs ∧ chargedTo s' first = granter :=
  ⟨{ s with granter := granter }, h, rfl, if_pos hg⟩

example : (directBytes toyEnv (toyTx (.num 2))).isSome = true ∧ chargedTo (toyTx (.num 2)) (txt "signer") = txt "signer" := by
  decide +kernel

/-- The full claim is false: one signature stands for two transactions whose fees two different accounts pay. -/
theorem direct_binds_false : ¬ ∀ (E : Env) (s s' : SignDoc) (x first : Bytes), E.Good → GoodMsgs s.msgs → GoodMsgs s'.msgs →
    directBytes E s = some x → directBytes E s' = some x → chargedTo s first = chargedTo s' first := by
  intro h
  obtain ⟨x, hx⟩ := Option.isSome_iff_exists.1
    (by decide +kernel : (directBytes toyEnv (toyTx (.num 2))).isSome = true)
  have := h toyEnv (toyTx (.num 2)) { toyTx (.num 2) with granter := txt "victim" } x (txt "signer") toy_good
    (toyMsg_good _ (.num _) (.num _)) (toyMsg_good _ (.num _) (.num _)) hx hx
  exact absurd this (by decide +kernel)

/-- Nor of the keys and signing modes. -/
theorem key_not_signed (E : Env) (s : SignDoc) (i : Signer) (key : Bytes) (mode : Nat) (h : s.signers = [i]) :
    directBytes E { s with signers := [{ i with key := key, mode := mode }] } = directBytes E s := by
  unfold directBytes docOf
  rw [h]

end Typed
