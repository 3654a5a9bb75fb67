import Verif.Typed.DocLemmas
/-!
# Lemmas about flattening and the table of types
-/
namespace Typed

/-! ## Names of messages -/

theorem msgField_inj {i j : Nat} (h : msgField i = msgField j) : i = j :=
  Hyperion.dec_inj (List.append_cancel_left h)

theorem msgField_clean (i : Nat) : Clean (msgField i) := by
  intro c hc
  unfold msgField at hc
  rcases List.mem_append.1 hc with hc | hc
  · have h : (txt "msg").all (fun c => decide (c ≠ 0x20 ∧ c ≠ 0x28 ∧ c ≠ 0x29 ∧ c ≠ 0x2c)) = true := by decide
    exact of_decide_eq_true (List.all_eq_true.1 h c hc)
  · obtain ⟨h1, h2⟩ := Hyperion.dec_digits i c hc
    refine ⟨?_, ?_, ?_, ?_⟩ <;> (rintro rfl; revert h1 h2; decide)

theorem msgField_ne {s : Bytes} (h : (s.drop 3).all (fun c => decide (48 ≤ c.toNat ∧ c.toNat ≤ 57)) = false) (i : Nat) :
    msgField i ≠ s := by
  intro he
  have hd : s.drop 3 = Hyperion.dec i := by
    rw [← he]
    rfl
  rw [hd] at h
  rw [List.all_eq_true.2 (fun c hc => decide_eq_true (Hyperion.dec_digits i c hc))] at h
  cases h

theorem msgField_ne_msgs (i : Nat) : msgField i ≠ txt "msgs" := msgField_ne (by decide) i

theorem msgField_not_tx (i : Nat) : msgField i ∉ txFields.map Field.name := by
  intro h
  have key : ∀ s ∈ txFields.map Field.name, s = txt "fee" ∨
      (s.drop 3).all (fun c => decide (48 ≤ c.toNat ∧ c.toNat ≤ 57)) = false := by
    have h : (txFields.map Field.name).all (fun s => decide (s = txt "fee") ||
      !(s.drop 3).all (fun c => decide (48 ≤ c.toNat ∧ c.toNat ≤ 57))) = true := by decide +kernel
    intro s hs
    have := List.all_eq_true.1 h s hs
    rw [Bool.or_eq_true, decide_eq_true_iff] at this
    rcases this with h | h
    · exact .inl h
    · exact .inr (by simpa using h)
  rcases key _ h with he | he
  · have h1 : (msgField i).head? = some 0x6d := rfl
    rw [he] at h1
    exact absurd h1 (by decide)
  · exact msgField_ne he i rfl

theorem txNames_nodup (n : Nat) :
    (txFields.map Field.name ++ (List.range n).map msgField).Nodup := by
  rw [List.nodup_append]
  refine ⟨by decide +kernel, ?_, ?_⟩
  · unfold List.Nodup
    rw [List.pairwise_map]
    exact List.Pairwise.imp (fun h hh => h (msgField_inj hh)) List.nodup_range
  · intro a ha b hb hab
    obtain ⟨i, _, rfl⟩ := List.mem_map.1 hb
    exact msgField_not_tx i (hab ▸ ha)

/-! ## Flattening -/

theorem get_append {α : Type} (a b : List (Bytes × α)) (k : Bytes) :
    KV.get (a ++ b) k = (KV.get a k).or (KV.get b k) := by
  induction a with
  | nil => rw [List.nil_append, KV.get_nil]; rfl
  | cons e a ih =>
    rw [List.cons_append, KV.get_cons, KV.get_cons, ih]
    split
    · rfl
    · rfl

theorem addMsgs_spec : ∀ (ms : List J) (d r : List (Bytes × J)) (i : Nat), addMsgs d i ms = some r →
    (∀ k, (∀ j, i ≤ j → j < i + ms.length → k ≠ msgField j) → KV.get r k = KV.get d k) ∧
    (∀ j m, ms[j]? = some m → KV.get r (msgField (i + j)) = some m ∧ KV.get d (msgField (i + j)) = none) := by
  intro ms
  induction ms with
  | nil =>
    intro d r i h
    cases h
    exact ⟨fun _ _ => rfl, fun j m hj => by simp at hj⟩
  | cons m ms ih =>
    intro d r i h
    unfold addMsgs at h
    split at h
    · cases h
    · rename_i hnone
      split at h
      · cases h
      · have hnone : KV.get d (msgField i) = none := by simpa using hnone
        obtain ⟨a1, a2⟩ := ih _ _ _ h
        constructor
        · intro k hk
          rw [a1 k (fun j h1 h2 => hk j (by omega) (by rw [List.length_cons]; omega)), get_append]
          have : msgField i ≠ k := fun hh => hk i (Nat.le_refl _) (by rw [List.length_cons]; omega) hh.symm
          rw [KV.get_cons, if_neg this, KV.get_nil]
          cases KV.get d k <;> rfl
        · intro j m' hj
          cases j with
          | zero =>
            rw [List.getElem?_cons_zero] at hj
            cases hj
            refine ⟨?_, hnone⟩
            show KV.get r (msgField i) = some m
            rw [a1 (msgField i) (fun j h1 _ hh => by have := msgField_inj hh; omega), get_append, hnone, KV.get_cons,
              if_pos rfl]
            rfl
          | succ j =>
            rw [List.getElem?_cons_succ] at hj
            obtain ⟨b1, b2⟩ := a2 j m' hj
            have e : i + 1 + j = i + (j + 1) := by omega
            rw [e] at b1 b2
            refine ⟨b1, ?_⟩
            rw [get_append] at b2
            cases hg : KV.get d (msgField (i + (j + 1))) with
            | none => rfl
            | some v => rw [hg] at b2; cases b2

/-- What a flattened document holds. -/
theorem flatten_spec {d flat : List (Bytes × J)} {n : Nat} (h : flattenMsgs d = some (flat, n)) (hm : hasMsgs d = true) :
    ∃ ms, KV.get d (txt "msgs") = some (.arr ms) ∧ n = ms.length ∧
      (∀ k, k ≠ txt "msgs" → (∀ j, j < n → k ≠ msgField j) → KV.get flat k = KV.get d k) ∧
      (∀ (j : Nat) (m : J), ms[j]? = some m → KV.get flat (msgField j) = some m ∧ KV.get d (msgField j) = none) := by
  unfold flattenMsgs at h
  split at h
  · cases h
  · rename_i ms hms
    split at h
    · cases h
    · rename_i r hr
      cases h
      have hget : KV.get d (txt "msgs") = some (.arr ms) := by
        unfold hasMsgs at hm
        rw [hms] at hm
        unfold msgsOf at hms
        split at hms
        · cases hms; cases hm
        · rename_i l hl
          cases hms
          exact hl
        · cases hms
      obtain ⟨a1, a2⟩ := addMsgs_spec ms d r 0 hr
      refine ⟨ms, hget, rfl, ?_, ?_⟩
      · intro k hk hj
        rw [KV.get_del, if_neg hk]
        exact a1 k (fun j _ h2 => hj j (by omega))
      · intro j m hj
        obtain ⟨b1, b2⟩ := a2 j m hj
        rw [Nat.zero_add] at b1 b2
        exact ⟨by rw [KV.get_del, if_neg (msgField_ne_msgs j)]; exact b1, b2⟩

/-! ## The table -/

theorem keys_nodup {l : List (Bytes × J)} (h : Canon (.obj l)) : (l.map (·.1)).Nodup := by
  cases h with
  | obj _ hs _ =>
  unfold List.Nodup
  rw [List.pairwise_map]
  refine hs.imp ?_
  intro a b hab he
  rw [he, ble_refl] at hab
  cases hab

theorem nodup_rev {α : Type} {l : List α} (h : l.Nodup) : l.reverse.Nodup := by
  unfold List.Nodup
  rw [List.pairwise_reverse]
  exact h.imp Ne.symm

theorem addAt_spec {name : Bytes} {fs : List Field} : ∀ (r i : Nat) (ts ts' : Types) (t : Bytes),
    addAt ts name fs r i = some (t, ts') → (fs.map Field.name).Nodup → (∀ f ∈ fs, Clean f.name) → CleanTable ts →
    CleanTable ts' ∧ ∀ k F, KV.get ts k = some F → KV.get ts' k = some F := by
  intro r
  induction r with
  | zero => intro i ts ts' t h; cases h
  | succ r ih =>
    intro i ts ts' t h hnd hcl hc
    unfold addAt at h
    split at h
    · cases h
      constructor
      · intro e he
        rcases List.mem_append.1 he with he | he
        · exact hc e he
        · rw [List.mem_singleton.1 he]
          exact ⟨hnd, hcl⟩
      · intro k F hk
        rw [get_append, hk]
        rfl
    · split at h
      · cases h
        exact ⟨hc, fun _ _ h => h⟩
      · exact ih _ _ _ _ h hnd hcl hc

mutual
theorem genFields_spec (pre : Bytes) : ∀ (l : List (Bytes × J)) (ts ts' : Types) (fs : List Field),
    genFields pre l ts = some (fs, ts') → Canon (.obj l) → CleanKeys (.obj l) → CleanTable ts →
    CleanTable ts' ∧ (∀ k F, KV.get ts k = some F → KV.get ts' k = some F) ∧
    (fs.map Field.name).Sublist (l.map (·.1)).reverse
  | [], ts, ts', fs, h, _, _, ht => by
    rw [genFields] at h
    cases h
    exact ⟨ht, fun _ _ h => h, List.Sublist.refl _⟩
  | (k, v) :: rest, ts, ts', fs, h, hc, hk, ht => by
    rw [genFields] at h
    have hc' := hc
    have hk' := hk
    cases hc with
    | obj _ hs hcv =>
    cases hk with
    | obj _ hkk hkv =>
    rw [List.pairwise_cons] at hs
    have cr : Canon (.obj rest) := .obj _ hs.2 (fun k v hm => hcv k v (List.mem_cons_of_mem _ hm))
    have kr : CleanKeys (.obj rest) :=
      .obj _ (fun k v hm => hkk k v (List.mem_cons_of_mem _ hm)) (fun k v hm => hkv k v (List.mem_cons_of_mem _ hm))
    split at h
    · cases h
    · rename_i fs1 ts1 h1
      obtain ⟨a1, a2, a3⟩ := genFields_spec pre rest ts ts1 fs1 h1 cr kr ht
      have sub : fs1.map Field.name |>.Sublist (((k, v) :: rest).map (·.1)).reverse := by
        rw [List.map_cons, List.reverse_cons]
        exact a3.trans (List.sublist_append_left _ _)
      split at h
      · cases h
      · rename_i ts2 h2
        cases h
        obtain ⟨b1, b2⟩ := genValue_spec _ v ts1 _ _ h2 (hcv k v List.mem_cons_self) (hkv k v List.mem_cons_self) a1
        exact ⟨b1, fun q F hq => b2 q F (a2 q F hq), sub⟩
      · rename_i t ts2 h2
        cases h
        obtain ⟨b1, b2⟩ := genValue_spec _ v ts1 _ _ h2 (hcv k v List.mem_cons_self) (hkv k v List.mem_cons_self) a1
        refine ⟨b1, fun q F hq => b2 q F (a2 q F hq), ?_⟩
        rw [List.map_append, List.map_cons (l := rest), List.reverse_cons]
        exact a3.append (List.Sublist.refl _)
theorem genValue_spec (pre : Bytes) : ∀ (v : J) (ts ts' : Types) (t : Option Bytes),
    genValue pre v ts = some (t, ts') → Canon v → CleanKeys v → CleanTable ts →
    CleanTable ts' ∧ ∀ k F, KV.get ts k = some F → KV.get ts' k = some F
  | .null, ts, ts', t, h, _, _, ht => by
    rw [genValue] at h
    cases h
    exact ⟨ht, fun _ _ h => h⟩
  | .bool _, ts, ts', t, h, _, _, ht => by
    rw [genValue] at h
    cases h
    exact ⟨ht, fun _ _ h => h⟩
  | .num _, ts, ts', t, h, _, _, ht => by
    rw [genValue] at h
    cases h
    exact ⟨ht, fun _ _ h => h⟩
  | .str _, ts, ts', t, h, _, _, ht => by
    rw [genValue] at h
    cases h
    exact ⟨ht, fun _ _ h => h⟩
  | .obj m, ts, ts', t, h, hc, hk, ht => by
    rw [genValue] at h
    split at h
    · cases h
    · rename_i fs ts1 h1
      obtain ⟨a1, a2, a3⟩ := genFields_spec pre m ts ts1 fs h1 hc hk ht
      split at h
      · cases h
      · rename_i t' ts2 h2
        cases h
        have hnd : (fs.map Field.name).Nodup := a3.nodup (nodup_rev (keys_nodup hc))
        have hcl : ∀ f ∈ fs, Clean f.name := by
          intro f hf
          have := a3.subset (List.mem_map_of_mem (f := Field.name) hf)
          rw [List.mem_reverse] at this
          obtain ⟨e, he, hee⟩ := List.mem_map.1 this
          cases hk with
          | obj _ hkk _ => exact hee ▸ hkk e.1 e.2 he
        obtain ⟨b1, b2⟩ := addAt_spec _ _ _ _ _ h2 hnd hcl a1
        exact ⟨b1, fun q F hq => b2 q F (a2 q F hq)⟩
  | .arr [], ts, ts', t, h, _, _, ht => by
    rw [genValue] at h
    cases h
    exact ⟨ht, fun _ _ h => h⟩
  | .arr (x :: xs), ts, ts', t, h, hc, hk, ht => by
    rw [genValue] at h
    have cx : Canon x := by
      cases hc with
      | arr _ hc => exact hc x List.mem_cons_self
    have kx : CleanKeys x := by
      cases hk with
      | arr _ hk => exact hk x List.mem_cons_self
    split at h
    · cases h
      exact ⟨ht, fun _ _ h => h⟩
    · split at h
      · cases h
      · rename_i ts1 h1
        cases h
        exact genValue_spec pre x ts _ _ h1 cx kx ht
      · rename_i t1 ts1 h1
        cases h
        exact genValue_spec pre x ts _ _ h1 cx kx ht
end

/-- A table made for `i` messages so far. -/
structure Made (ts : Types) (i : Nat) : Prop where
  clean : CleanTable ts
  tx : ∃ F, KV.get ts (txt "Tx") = some F ∧ F.map Field.name = txFields.map Field.name ++ (List.range i).map msgField ∧
    txFields <+: F
  fee : KV.get ts (txt "Fee") = KV.get baseTypes (txt "Fee")
  coin : KV.get ts (txt "Coin") = KV.get baseTypes (txt "Coin")

theorem genMsg_spec {ts ts' : Types} {i : Nat} {v : Option J} (h : genMsg ts (msgField i) v = some ts')
    (hv : ∀ m, v = some m → Canon m ∧ CleanKeys m) (hm : Made ts i) : Made ts' (i + 1) := by
  unfold genMsg at h
  split at h
  · rename_i m
    obtain ⟨hc, hk⟩ := hv _ rfl
    split at h
    · rename_i root fs ts1 hr h1
      split at h
      · cases h
      · rename_i t ts2 h2
        cases h
        obtain ⟨a1, a2, a3⟩ := genFields_spec _ m ts ts1 fs h1 hc hk hm.clean
        have hnd : (fs.map Field.name).Nodup := a3.nodup (nodup_rev (keys_nodup hc))
        have hcl : ∀ f ∈ fs, Clean f.name := by
          intro f hf
          have := a3.subset (List.mem_map_of_mem (f := Field.name) hf)
          rw [List.mem_reverse] at this
          obtain ⟨e, he, hee⟩ := List.mem_map.1 this
          cases hk with
          | obj _ hkk _ => exact hee ▸ hkk e.1 e.2 he
        obtain ⟨b1, b2⟩ := addAt_spec _ _ _ _ _ h2 hnd hcl a1
        obtain ⟨F, f1, f2, f3⟩ := hm.tx
        have g := b2 _ _ (a2 _ _ f1)
        have hF : fieldsOf ts2 (txt "Tx") = F := by
          unfold fieldsOf
          rw [g]
          rfl
        have hnames : (F ++ [({ name := msgField i, type := t } : Field)]).map Field.name =
            txFields.map Field.name ++ (List.range (i + 1)).map msgField := by
          rw [List.map_append, f2, List.range_succ, List.map_append, List.append_assoc]
          rfl
        rw [hF]
        have keep : ∀ k, k ≠ txt "Tx" → (KV.get baseTypes k).isSome → KV.get ts k = KV.get baseTypes k →
            KV.get (KV.set ts2 (txt "Tx") (F ++ [({ name := msgField i, type := t } : Field)])) k =
              KV.get baseTypes k := by
          intro k hk hs hg
          obtain ⟨G, hG⟩ := Option.isSome_iff_exists.1 hs
          rw [KV.get_set, if_neg hk, hG]
          exact b2 _ _ (a2 _ _ (hg.trans hG))
        refine ⟨?_, ⟨F ++ [({ name := msgField i, type := t } : Field)], by rw [KV.get_set, if_pos rfl], hnames,
          f3.trans (List.prefix_append _ _)⟩, keep _ (by decide) (by decide +kernel) hm.fee,
          keep _ (by decide) (by decide +kernel) hm.coin⟩
        intro e he
        rcases KV.mem_set.1 he with rfl | ⟨he, _⟩
        · refine ⟨?_, ?_⟩
          · rw [hnames]
            exact txNames_nodup _
          · intro f hf
            rcases List.mem_append.1 hf with hf | hf
            · exact (b1 _ (KV.mem_of_get g)).2 f hf
            · rw [List.mem_singleton.1 hf]
              exact msgField_clean i
        · exact b1 e he
    · cases h
  · cases h

theorem genAll_spec {flat : List (Bytes × J)} : ∀ (r i : Nat) (ts ts' : Types), genAll flat r i ts = some ts' →
    (∀ j, i ≤ j → j < i + r → ∀ m, KV.get flat (msgField j) = some m → Canon m ∧ CleanKeys m) → Made ts i → Made ts' (i + r)
  | 0, i, ts, ts', h, _, hm => by
    cases h
    exact hm
  | r + 1, i, ts, ts', h, hv, hm => by
    unfold genAll at h
    split at h
    · cases h
    · rename_i ts1 h1
      have := genAll_spec r (i + 1) ts1 ts' h (fun j h1 h2 => hv j (by omega) (by omega))
        (genMsg_spec h1 (hv i (Nat.le_refl _) (by omega)) hm)
      have e : i + 1 + r = i + (r + 1) := by omega
      rw [← e]
      exact this

theorem baseTypes_made : Made baseTypes 0 := by
  refine ⟨?_, ⟨txFields, by decide +kernel, by decide +kernel, List.prefix_refl _⟩, rfl, rfl⟩
  have h : baseTypes.all (fun e => decide (e.2.map Field.name).Nodup &&
      e.2.all (fun f => f.name.all (fun c => decide (c ≠ 0x20 ∧ c ≠ 0x28 ∧ c ≠ 0x29 ∧ c ≠ 0x2c)))) = true := by
    decide +kernel
  intro e he
  have := List.all_eq_true.1 h e he
  rw [Bool.and_eq_true, decide_eq_true_iff] at this
  refine ⟨this.1, ?_⟩
  intro f hf c hc
  exact of_decide_eq_true (List.all_eq_true.1 (List.all_eq_true.1 this.2 f hf) c hc)

/-- What typed data of a document is made of. -/
theorem wrap_spec {d flat : List (Bytes × J)} {ts : Types} (h : wrap d = some (ts, flat)) (hm : hasMsgs d = true)
    (ho : Orderly d) : ∃ ms, KV.get d (txt "msgs") = some (.arr ms) ∧ Made ts ms.length ∧
      (∀ k, k ≠ txt "msgs" → (∀ j, j < ms.length → k ≠ msgField j) → KV.get flat k = KV.get d k) ∧
      (∀ (j : Nat) (m : J), ms[j]? = some m → KV.get flat (msgField j) = some m ∧ KV.get d (msgField j) = none) := by
  unfold wrap at h
  split at h
  · cases h
  · rename_i flat' n hf
    split at h
    · cases h
    · rename_i ts' ht
      cases h
      obtain ⟨ms, g, rfl, a1, a2⟩ := flatten_spec hf hm
      refine ⟨ms, g, ?_, a1, a2⟩
      have := genAll_spec _ _ _ _ ht (fun j _ hj m hg => ?_) baseTypes_made
      · rw [Nat.zero_add] at this
        exact this
      · rw [Nat.zero_add] at hj
        obtain ⟨x, hx⟩ : ∃ x, ms[j]? = some x := ⟨ms[j], List.getElem?_eq_getElem hj⟩
        have := (a2 j x hx).1
        rw [hg] at this
        cases this
        have hmem := List.mem_of_getElem? hx
        have h1 : Canon (.arr ms) := by
          cases ho.1 with
          | obj _ _ h => exact h _ _ (KV.mem_of_get g)
        have h2 : CleanKeys (.arr ms) := by
          cases ho.2 with
          | obj _ _ h => exact h _ _ (KV.mem_of_get g)
        constructor
        · cases h1 with
          | arr _ h => exact h _ hmem
        · cases h2 with
          | arr _ h => exact h _ hmem

end Typed
