import Verif.Typed.WrapLemmas
/-!
# Lemmas: fields of type `string` are fixed exactly
-/
namespace Typed
section
variable {K : Bytes → Option Bytes} {pb : Bytes → Option Int}

theorem rawData_hash (hw : Wide K) {ts ts' : Types} {dom dom' data data' : List (Bytes × J)} {p x : Bytes}
    (h : rawData K pb ts dom p data = some x) (h' : rawData K pb ts' dom' p data' = some x) :
    ∃ n n' y, structHash K (encData K pb ts n p data) = some y ∧ structHash K (encData K pb ts' n' p data') = some y := by
  unfold rawData at h h'
  split at h
  · cases h
  · split at h'
    · cases h'
    · split at h
      · rename_i ds hh e1 e2
        split at h'
        · rename_i ds' hh' e1' e2'
          have hx := (Option.some.inj h).trans (Option.some.inj h').symm
          have hx := (List.cons.inj (List.cons.inj hx).2).2
          unfold hashStruct at e1 e2 e1' e2'
          obtain ⟨ws1, _, k1⟩ := structHash_some e1
          obtain ⟨ws1', _, k1'⟩ := structHash_some e1'
          obtain ⟨_, hhe⟩ := List.append_inj hx (by rw [hw _ _ k1, hw _ _ k1'])
          exact ⟨_, _, hh, e2, hhe ▸ e2'⟩
        · cases h'
      · cases h

/-- Structs with the same hash have the same words for each field. -/
theorem struct_field (hn : NoCollision K) (hw : Wide K) {ts ts' : Types} {data data' : List (Bytes × J)} {p y : Bytes}
    {n n' : Nat} (h : structHash K (encData K pb ts n p data) = some y)
    (h' : structHash K (encData K pb ts' n' p data') = some y) (hF : fieldsOf ts p = fieldsOf ts' p) :
    ∃ m m', ∀ f ∈ fieldsOf ts p, ∃ z, encField K pb ts (encData K pb ts m) data f = some z ∧
      encField K pb ts' (encData K pb ts' m') data' f = some z := by
  obtain ⟨ws, g, k⟩ := structHash_some h
  obtain ⟨ws', g', k'⟩ := structHash_some h'
  have e := flatten_inj (encData_length hw g) (encData_length hw g') (hn _ _ _ k k')
  subst e
  obtain ⟨m, th, fs, _, hws, _, _, e1⟩ := encData_some g
  obtain ⟨m', th', fs', _, hws', _, _, e2⟩ := encData_some g'
  rw [hws] at hws'
  obtain ⟨_, hfs⟩ := List.cons.inj hws'
  subst hfs
  rw [← hF] at e2
  refine ⟨m, m', ?_⟩
  intro f hf
  obtain ⟨i, hi⟩ := List.mem_iff_getElem?.1 hf
  obtain ⟨y, y1, y2⟩ := allSome_get e1 i f hi
  obtain ⟨y', y1', y2'⟩ := allSome_get e2 i f hi
  rw [y1] at y1'
  cases y1'
  exact ⟨y, y2, y2'⟩

theorem encField_str {ts : Types} {r : Bytes → List (Bytes × J) → Option (List Bytes)} {data : List (Bytes × J)}
    {k s z : Bytes} (h : encField K pb ts r data ⟨k, txt "string"⟩ = some z) (hg : KV.get data k = some (.str s)) :
    K s = some z := by
  unfold encField at h
  dsimp only at h
  rw [hg] at h
  dsimp only at h
  rw [if_neg (by decide)] at h
  unfold encOne at h
  split at h
  · cases h
  · exact h

theorem encField_obj {ts : Types} {r : Bytes → List (Bytes × J) → Option (List Bytes)} {data m : List (Bytes × J)}
    {k t z : Bytes} (h : encField K pb ts r data ⟨k, t⟩ = some z) (hg : KV.get data k = some (.obj m))
    (ht : (KV.get ts t).isSome) (ha : isArr t = false) : structHash K (r t m) = some z := by
  unfold encField at h
  dsimp only at h
  rw [hg] at h
  dsimp only at h
  rw [ha] at h
  unfold encOne at h
  rw [if_neg (by decide), if_pos ht] at h
  exact h

theorem encField_arr {ts : Types} {r : Bytes → List (Bytes × J) → Option (List Bytes)} {data : List (Bytes × J)}
    {l : List J} {k t z : Bytes} (h : encField K pb ts r data ⟨k, t⟩ = some z) (hg : KV.get data k = some (.arr l))
    (ha : isArr t = true) : structHash K (allSome (encOne K pb ts r (elemOf t)) l) = some z := by
  unfold encField at h
  dsimp only at h
  rw [hg] at h
  dsimp only at h
  rw [ha, if_pos rfl] at h
  exact h

/-- Texts in a field of type `string` are the same. -/
theorem field_str (hn : NoCollision K) (hw : Wide K) {ts ts' : Types} {data data' : List (Bytes × J)} {p y k s s' : Bytes}
    {n n' : Nat} (h : structHash K (encData K pb ts n p data) = some y)
    (h' : structHash K (encData K pb ts' n' p data') = some y) (hF : fieldsOf ts p = fieldsOf ts' p)
    (hf : (⟨k, txt "string"⟩ : Field) ∈ fieldsOf ts p) (hs : KV.get data k = some (.str s))
    (hs' : KV.get data' k = some (.str s')) : s = s' := by
  obtain ⟨m, m', hm⟩ := struct_field hn hw h h' hF
  obtain ⟨z, z1, z2⟩ := hm _ hf
  exact hn _ _ _ (encField_str z1 hs) (encField_str z2 hs')

/-- Objects in a field have the same hash. -/
theorem field_obj (hn : NoCollision K) (hw : Wide K) {ts ts' : Types} {data data' m m' : List (Bytes × J)} {p y k t : Bytes}
    {n n' : Nat} (h : structHash K (encData K pb ts n p data) = some y)
    (h' : structHash K (encData K pb ts' n' p data') = some y) (hF : fieldsOf ts p = fieldsOf ts' p)
    (hf : (⟨k, t⟩ : Field) ∈ fieldsOf ts p) (hs : KV.get data k = some (.obj m))
    (hs' : KV.get data' k = some (.obj m')) (ht : (KV.get ts t).isSome) (ht' : (KV.get ts' t).isSome)
    (ha : isArr t = false) :
    ∃ n n' y, structHash K (encData K pb ts n t m) = some y ∧ structHash K (encData K pb ts' n' t m') = some y := by
  obtain ⟨q, q', hm⟩ := struct_field hn hw h h' hF
  obtain ⟨z, z1, z2⟩ := hm _ hf
  exact ⟨q, q', z, encField_obj z1 hs ht ha, encField_obj z2 hs' ht' ha⟩

/-- Lists of objects in a field have the same length and, one by one, the same hashes. -/
theorem field_arr (hn : NoCollision K) (hw : Wide K) {ts ts' : Types} {data data' : List (Bytes × J)}
    {l l' : List J} {p y k t : Bytes}
    {n n' : Nat} (h : structHash K (encData K pb ts n p data) = some y)
    (h' : structHash K (encData K pb ts' n' p data') = some y) (hF : fieldsOf ts p = fieldsOf ts' p)
    (hf : (⟨k, t⟩ : Field) ∈ fieldsOf ts p) (hs : KV.get data k = some (.arr l))
    (hs' : KV.get data' k = some (.arr l')) (ha : isArr t = true)
    (ht : (KV.get ts (elemOf t)).isSome) (ht' : (KV.get ts' (elemOf t)).isSome) :
    l.length = l'.length ∧ ∀ (i : Nat) (m m' : List (Bytes × J)), l[i]? = some (.obj m) → l'[i]? = some (.obj m') →
    ∃ n n' y, structHash K (encData K pb ts n (elemOf t) m) = some y ∧
      structHash K (encData K pb ts' n' (elemOf t) m') = some y := by
  obtain ⟨q, q', hm⟩ := struct_field hn hw h h' hF
  obtain ⟨z, z1, z2⟩ := hm _ hf
  obtain ⟨ws, e1, k1⟩ := structHash_some (encField_arr z1 hs ha)
  obtain ⟨ws', e2, k2⟩ := structHash_some (encField_arr z2 hs' ha)
  have e := flatten_inj
    (allSome_all (P := fun w => w.length = 32) (fun _ _ hy => encOne_length hw hy) e1)
    (allSome_all (P := fun w => w.length = 32) (fun _ _ hy => encOne_length hw hy) e2) (hn _ _ _ k1 k2)
  subst e
  refine ⟨by rw [← allSome_length e1, ← allSome_length e2], ?_⟩
  intro i m m' hi hi'
  obtain ⟨u, u1, u2⟩ := allSome_get e1 i _ hi
  obtain ⟨u', u1', u2'⟩ := allSome_get e2 i _ hi'
  rw [u1] at u1'
  cases u1'
  unfold encOne at u2 u2'
  rw [if_pos ht] at u2
  rw [if_pos ht'] at u2'
  exact ⟨q, q', u, u2, u2'⟩

end

theorem coin_exact {K : Bytes → Option Bytes} {pb : Bytes → Option Int} (hn : NoCollision K) (hw : Wide K)
    {ts ts' : Types} {F : List Field} {c c' : Bytes × Nat} {n n' : Nat} {y p : Bytes}
    (hF : fieldsOf ts p = F) (hF' : fieldsOf ts' p = F)
    (hd : (⟨txt "denom", txt "string"⟩ : Field) ∈ F) (ha : (⟨txt "amount", txt "string"⟩ : Field) ∈ F) {m m' : List (Bytes × J)}
    (hm : coinJson c = .obj m) (hm' : coinJson c' = .obj m')
    (h : structHash K (encData K pb ts n p m) = some y)
    (h' : structHash K (encData K pb ts' n' p m') = some y) : c = c' := by
  cases hm
  cases hm'
  have e := hF.trans hF'.symm
  have e1 := field_str hn hw h h' e (hF ▸ hd) (s := c.1) (s' := c'.1)
    (by rw [KV.get_cons, if_neg (show ¬ txt "amount" = txt "denom" by decide), KV.get_cons, if_pos rfl])
    (by rw [KV.get_cons, if_neg (show ¬ txt "amount" = txt "denom" by decide), KV.get_cons, if_pos rfl])
  have e2 := field_str hn hw h h' e (hF ▸ ha) (s := Hyperion.dec c.2) (s' := Hyperion.dec c'.2)
    (by rw [KV.get_cons, if_pos rfl]) (by rw [KV.get_cons, if_pos rfl])
  exact Prod.ext e1 (Hyperion.dec_inj e2)

/-- The fee of the SDK's form. -/
def feeJson (amount : List (Bytes × Nat)) (gas : Nat) : List (Bytes × J) :=
  [(txt "amount", .arr (amount.map coinJson)), (txt "gas", .str (Hyperion.dec gas))]

theorem fee_exact {K : Bytes → Option Bytes} {pb : Bytes → Option Int} (hn : NoCollision K) (hw : Wide K)
    {ts ts' : Types} {i i' : Nat} (hm : Made ts i) (hm' : Made ts' i') {a a' : List (Bytes × Nat)} {g g' n n' : Nat} {y : Bytes}
    (h : structHash K (encData K pb ts n (txt "Fee") (feeJson a g)) = some y)
    (h' : structHash K (encData K pb ts' n' (txt "Fee") (feeJson a' g')) = some y) : a = a' ∧ g = g' := by
  have b : KV.get baseTypes (txt "Fee") = some [⟨txt "amount", txt "Coin[]"⟩, ⟨txt "gas", txt "string"⟩] := by
    decide +kernel
  have c : KV.get baseTypes (txt "Coin") = some [⟨txt "denom", txt "string"⟩, ⟨txt "amount", txt "string"⟩] := by
    decide +kernel
  have f1 : fieldsOf ts (txt "Fee") = [⟨txt "amount", txt "Coin[]"⟩, ⟨txt "gas", txt "string"⟩] := by
    unfold fieldsOf; rw [hm.fee, b]; rfl
  have f2 : fieldsOf ts' (txt "Fee") = [⟨txt "amount", txt "Coin[]"⟩, ⟨txt "gas", txt "string"⟩] := by
    unfold fieldsOf; rw [hm'.fee, b]; rfl
  have c1 : fieldsOf ts (txt "Coin") = [⟨txt "denom", txt "string"⟩, ⟨txt "amount", txt "string"⟩] := by
    unfold fieldsOf; rw [hm.coin, c]; rfl
  have c2 : fieldsOf ts' (txt "Coin") = [⟨txt "denom", txt "string"⟩, ⟨txt "amount", txt "string"⟩] := by
    unfold fieldsOf; rw [hm'.coin, c]; rfl
  have e := f1.trans f2.symm
  constructor
  · have hel : elemOf (txt "Coin[]") = txt "Coin" := by decide +kernel
    obtain ⟨hl, hp⟩ := field_arr hn hw h h' e (k := txt "amount") (t := txt "Coin[]")
      (by rw [f1]; exact List.mem_cons_self) (l := a.map coinJson) (l' := a'.map coinJson)
      (by unfold feeJson; rw [KV.get_cons, if_pos rfl]) (by unfold feeJson; rw [KV.get_cons, if_pos rfl]) (by decide)
      (by rw [hel, hm.coin, c]; rfl) (by rw [hel, hm'.coin, c]; rfl)
    rw [hel] at hp
    rw [List.length_map, List.length_map] at hl
    refine List.ext_getElem hl ?_
    intro i h1 h2
    obtain ⟨m, hm1⟩ : ∃ m, coinJson a[i] = .obj m := ⟨_, rfl⟩
    obtain ⟨m', hm2⟩ : ∃ m, coinJson a'[i] = .obj m := ⟨_, rfl⟩
    obtain ⟨q, q', z, z1, z2⟩ := hp i m m'
      (by rw [List.getElem?_map, List.getElem?_eq_getElem h1]; exact congrArg some hm1)
      (by rw [List.getElem?_map, List.getElem?_eq_getElem h2]; exact congrArg some hm2)
    exact coin_exact hn hw c1 c2 List.mem_cons_self (List.mem_cons_of_mem _ List.mem_cons_self) hm1 hm2 z1 z2
  · refine Hyperion.dec_inj (field_str hn hw h h' e (k := txt "gas") (by rw [f1]; exact List.mem_cons_of_mem _ List.mem_cons_self)
      ?_ ?_)
    · unfold feeJson; rw [KV.get_cons, if_neg (show ¬ txt "amount" = txt "gas" by decide), KV.get_cons, if_pos rfl]
    · unfold feeJson; rw [KV.get_cons, if_neg (show ¬ txt "amount" = txt "gas" by decide), KV.get_cons, if_pos rfl]

end Typed
