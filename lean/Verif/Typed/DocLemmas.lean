import Verif.Typed.DocSpec
import Verif.Typed.ValueLemmas
import Verif.Hyperion.ClaimsLemmas
/-!
# Lemmas about documents as typed data
-/
namespace Typed

/-! ## Raw data -/

/-- The bytes to sign determine the fields of the primary type and the value. -/
theorem rawData_binds {K : Bytes → Option Bytes} {pb : Bytes → Option Int} (hn : NoCollision K) (hw : Wide K)
    {ts ts' : Types} {dom dom' data data' : List (Bytes × J)} {p x : Bytes}
    (hc : CleanTable ts) (hc' : CleanTable ts') (htp : trim p = p) (hpc : Clean p)
    (hp : (KV.get ts p).isSome) (hp' : (KV.get ts' p).isSome)
    (h : rawData K pb ts dom p data = some x) (h' : rawData K pb ts' dom' p data' = some x) :
    fieldsOf ts p = fieldsOf ts' p ∧ Alike pb (.obj data) (.obj data') := by
  unfold rawData at h h'
  split at h
  · cases h
  · rename_i hv
    split at h'
    · cases h'
    · rename_i hv'
      rw [Bool.not_eq_false] at hv hv'
      split at h
      · rename_i ds hh e1 e2
        split at h'
        · rename_i ds' hh' e1' e2'
          have hx := (Option.some.inj h).trans (Option.some.inj h').symm
          have hx := (List.cons.inj (List.cons.inj hx).2).2
          unfold hashStruct at e1 e2 e1' e2'
          obtain ⟨ws1, _, k1⟩ := structHash_some e1
          obtain ⟨ws1', _, k1'⟩ := structHash_some e1'
          obtain ⟨ws, g, k⟩ := structHash_some e2
          obtain ⟨ws', g', k'⟩ := structHash_some e2'
          obtain ⟨_, hhe⟩ := List.append_inj hx (by rw [hw _ _ k1, hw _ _ k1'])
          rw [hhe] at k
          have hws := flatten_inj (encData_length hw g) (encData_length hw g') (hn _ _ _ k k')
          subst hws
          obtain ⟨_, th, fs, _, hws, _, t1, _⟩ := encData_some g
          obtain ⟨_, th', fs', _, hws', _, t1', _⟩ := encData_some g'
          rw [hws] at hws'
          obtain ⟨hth, _⟩ := List.cons.inj hws'
          rw [← hth] at t1'
          obtain ⟨ha, hm⟩ := agree_of_text hv hv' hc hc' htp hpc hp hp' (hn _ _ _ t1 t1')
          exact ⟨ha.fields p hm, encData_inj hn hw ha hv hc hc' _ _ p data data' ws hm g g'⟩
        · cases h'
      · cases h

/-- Every key of a value that has typed data is a field of the primary type. -/
theorem rawData_covers {K : Bytes → Option Bytes} {pb : Bytes → Option Int} {ts : Types}
    {dom data : List (Bytes × J)} {p x : Bytes} (hc : CleanTable ts) (h : rawData K pb ts dom p data = some x) :
    (∀ k v, KV.get data k = some v → ∃ f ∈ fieldsOf ts p, f.name = k) ∧
    ∀ f ∈ fieldsOf ts p, (KV.get data f.name).isSome := by
  unfold rawData at h
  split at h
  · cases h
  · split at h
    · rename_i ds hh e1 e2
      unfold hashStruct at e2
      obtain ⟨ws, g, _⟩ := structHash_some e2
      obtain ⟨m, th, fs, _, _, hl, _, e⟩ := encData_some g
      have hall : ∀ f ∈ fieldsOf ts p, (KV.get data f.name).isSome := by
        intro f hf
        obtain ⟨i, hi⟩ := List.mem_iff_getElem?.1 hf
        obtain ⟨y, _, y2⟩ := allSome_get e i f hi
        obtain ⟨v, gv, _⟩ := encField_get y2
        rw [gv]; rfl
      exact ⟨keys_covered hc hl hall, hall⟩
    · cases h

/-! ## Values in canonical order -/

theorem ble_total (a b : Bytes) : (ble a b || ble b a) = true := by
  induction a generalizing b with
  | nil => cases b <;> rfl
  | cons x xs ih =>
    cases b with
    | nil => rfl
    | cons y ys =>
      unfold ble
      by_cases h1 : x < y
      · rw [if_pos h1]; rfl
      · by_cases h2 : y < x
        · rw [if_neg h1, if_pos h2, if_pos h2]; rfl
        · rw [if_neg h1, if_neg h2, if_neg h2, if_neg h1]
          exact ih ys

theorem ble_refl (a : Bytes) : ble a a = true := by
  have := ble_total a a
  simpa using this

theorem ble_antisymm {a b : Bytes} (h : ble a b = true) (h' : ble b a = true) : a = b := by
  induction a generalizing b with
  | nil =>
    cases b with
    | nil => rfl
    | cons y ys => cases h'
  | cons x xs ih =>
    cases b with
    | nil => cases h
    | cons y ys =>
      unfold ble at h h'
      by_cases h1 : x < y
      · have h2 : ¬y < x := by
          intro hh
          exact absurd (UInt8.lt_trans h1 hh) (UInt8.lt_irrefl x)
        rw [if_neg h2, if_pos h1] at h'
        cases h'
      · by_cases h2 : y < x
        · rw [if_neg h1, if_pos h2] at h
          cases h
        · rw [if_neg h1, if_neg h2] at h
          rw [if_neg h2, if_neg h1] at h'
          have : x = y := UInt8.le_antisymm (UInt8.not_lt.1 h2) (UInt8.not_lt.1 h1)
          rw [this, ih h h']

/-- Sorted lists with the same entries are the same. -/
theorem sorted_ext : ∀ {l l' : List (Bytes × J)}, l.Pairwise (fun a b => ble b.1 a.1 = false) →
    l'.Pairwise (fun a b => ble b.1 a.1 = false) → (∀ k, KV.get l k = KV.get l' k) → l = l'
  | [], [], _, _, _ => rfl
  | [], e :: l', _, _, h => by
    have := h e.1
    rw [KV.get_nil, KV.get_cons, if_pos rfl] at this
    cases this
  | e :: l, [], _, _, h => by
    have := h e.1
    rw [KV.get_nil, KV.get_cons, if_pos rfl] at this
    cases this
  | e :: l, e' :: l', hs, hs', h => by
    rw [List.pairwise_cons] at hs hs'
    have key : e.1 = e'.1 := by
      by_cases hk : e.1 = e'.1
      · exact hk
      · have a := h e.1
        have b := h e'.1
        rw [KV.get_cons, if_pos rfl, KV.get_cons, if_neg (fun hh => hk hh.symm)] at a
        rw [KV.get_cons, if_neg hk, KV.get_cons, if_pos rfl] at b
        have m1 := hs'.1 _ (KV.mem_of_get a.symm)
        have m2 := hs.1 _ (KV.mem_of_get b)
        have := ble_total e.1 e'.1
        dsimp only at m1 m2
        rw [m1, m2] at this
        cases this
    have hv : e.2 = e'.2 := by
      have a := h e.1
      rw [KV.get_cons, if_pos rfl, KV.get_cons, if_pos key.symm] at a
      exact Option.some.inj a
    have hnone : ∀ {m : List (Bytes × J)} {q : Bytes × J}, (∀ a ∈ m, ble a.1 q.1 = false) → KV.get m q.1 = none := by
      intro m q hm
      rw [KV.get_eq_none]
      intro a ha he
      have := hm a ha
      rw [he, ble_refl] at this
      cases this
    have hrest : ∀ k, KV.get l k = KV.get l' k := by
      intro k
      by_cases hk : e.1 = k
      · rw [← hk, hnone hs.1, key, hnone hs'.1]
      · have a := h k
        rw [KV.get_cons, if_neg hk, KV.get_cons, if_neg (by rw [← key]; exact hk)] at a
        exact a
    rw [sorted_ext hs.2 hs'.2 hrest, Prod.ext (x := e) (y := e') key hv]

/-- If no text is read as a number, alike values in canonical order are the same. -/
theorem alike_eq {v v' : J} (h : Alike (fun _ => none) v v') : Canon v → Canon v' → v = v' := by
  induction h with
  | null => intros; rfl
  | bool b => intros; rfl
  | str s => intros; rfl
  | int v v' n h h' =>
    intros
    rcases h with rfl | ⟨s, _, hs⟩
    · rcases h' with rfl | ⟨s, _, hs⟩
      · rfl
      · cases hs
    · cases hs
  | arr l l' hl h ih =>
    intro hc hc'
    cases hc with
    | arr _ hc =>
    cases hc' with
    | arr _ hc' =>
    congr 1
    apply List.ext_getElem? 
    intro i
    cases hi : l[i]? with
    | none =>
      have := List.getElem?_eq_none_iff.1 hi
      exact (List.getElem?_eq_none_iff.2 (by omega)).symm
    | some v =>
      cases hi' : l'[i]? with
      | none =>
        have := List.getElem?_eq_none_iff.1 hi'
        have h2 := List.getElem?_eq_none_iff (l := l) (i := i) |>.2 (by omega)
        rw [hi] at h2
        cases h2
      | some v' => rw [ih i v v' hi hi' (hc v (List.mem_of_getElem? hi)) (hc' v' (List.mem_of_getElem? hi'))]
  | obj l l' hk h ih =>
    intro hc hc'
    cases hc with
    | obj _ hs hc =>
    cases hc' with
    | obj _ hs' hc' =>
    congr 1
    apply sorted_ext hs hs'
    intro k
    have hkk := hk k
    cases hi : KV.get l k with
    | none =>
      rw [hi] at hkk
      cases hi' : KV.get l' k with
      | none => rfl
      | some v' => rw [hi'] at hkk; cases hkk
    | some v =>
      cases hi' : KV.get l' k with
      | none => rw [hi, hi'] at hkk; cases hkk
      | some v' => rw [ih k v v' hi hi' (hc k v (KV.mem_of_get hi)) (hc' k v' (KV.mem_of_get hi'))]

/-! ## Reading less text as numbers -/

section
variable {K : Bytes → Option Bytes} {pb : Bytes → Option Int}

theorem allSome_mono {α β : Type} {f g : α → Option β} (h : ∀ x y, f x = some y → g x = some y) :
    ∀ {l : List α} {r : List β}, allSome f l = some r → allSome g l = some r
  | [], r, e => e
  | x :: xs, r, e => by
    unfold allSome at e ⊢
    split at e
    · rename_i y ys h1 h2
      cases e
      rw [h _ _ h1, allSome_mono h h2]
    · cases e

theorem encPrim_mono {t : Bytes} {v : J} {h : Bytes} (hh : encPrim K (fun _ => none) t v = some h) :
    encPrim K pb t v = some h := by
  unfold encPrim at hh ⊢
  by_cases hb : t = txt "bool"
  · rw [if_pos hb] at hh ⊢
    exact hh
  · rw [if_neg hb] at hh ⊢
    by_cases hs : t = txt "string"
    · rw [if_pos hs] at hh ⊢
      exact hh
    · rw [if_neg hs] at hh ⊢
      split at hh
      · rename_i s w _
        cases hp : parseInt (fun _ => none) s w v with
        | none => rw [hp] at hh; cases hh
        | some n =>
          rw [hp] at hh
          have : parseInt pb s w v = some n := by
            obtain ⟨h1, h2⟩ := parseInt_some hp
            rcases intOf_some h1 with rfl | ⟨s, _, hs⟩
            · unfold parseInt intOf
              dsimp only
              rw [if_pos h2]
            · cases hs
          rw [this]
          exact hh
      · cases hh

theorem encOne_mono {ts : Types} {rec rec' : Bytes → List (Bytes × J) → Option (List Bytes)}
    (hr : ∀ p m ws, rec p m = some ws → rec' p m = some ws) {t : Bytes} {v : J} {h : Bytes}
    (hh : encOne K (fun _ => none) ts rec t v = some h) : encOne K pb ts rec' t v = some h := by
  unfold encOne at hh ⊢
  split at hh
  · rename_i hs
    rw [if_pos hs]
    split at hh
    · obtain ⟨ws, e, k⟩ := structHash_some hh
      rw [hr _ _ _ e]
      exact k
    · cases hh
  · rename_i hs
    rw [if_neg hs]
    exact encPrim_mono hh

theorem encField_mono {ts : Types} {rec rec' : Bytes → List (Bytes × J) → Option (List Bytes)}
    (hr : ∀ p m ws, rec p m = some ws → rec' p m = some ws) {data : List (Bytes × J)} {f : Field} {h : Bytes}
    (hh : encField K (fun _ => none) ts rec data f = some h) : encField K pb ts rec' data f = some h := by
  obtain ⟨v, gv, hc⟩ := encField_get hh
  unfold encField
  rw [gv]
  dsimp only
  rcases hc with ⟨ha, items, rfl, e⟩ | ⟨ha, e⟩
  · rw [if_pos ha]
    obtain ⟨ws, e1, k⟩ := structHash_some e
    dsimp only
    rw [allSome_mono (fun x y hy => encOne_mono hr hy) e1]
    exact k
  · rw [if_neg (by rw [ha]; decide)]
    exact encOne_mono hr e

theorem encData_mono {ts : Types} : ∀ (n : Nat) (p : Bytes) (data : List (Bytes × J)) (ws : List Bytes),
    encData K (fun _ => none) ts n p data = some ws → encData K pb ts n p data = some ws := by
  intro n
  induction n with
  | zero => intro p data ws h; cases h
  | succ n ih =>
    intro p data ws h
    obtain ⟨m, th, fs, hm, rfl, hl, h1, h2⟩ := encData_some h
    cases hm
    unfold encData
    rw [if_neg (by omega), h1, allSome_mono (fun x y hy => encField_mono ih hy) h2]

theorem rawData_mono {ts : Types} {dom data : List (Bytes × J)} {p x : Bytes}
    (h : rawData K (fun _ => none) ts dom p data = some x) : rawData K pb ts dom p data = some x := by
  unfold rawData at h ⊢
  split at h
  · cases h
  · rename_i hv
    rw [if_neg hv]
    split at h
    · rename_i ds hh e1 e2
      unfold hashStruct at e1 e2
      obtain ⟨ws1, g1, k1⟩ := structHash_some e1
      obtain ⟨ws, g, k⟩ := structHash_some e2
      have a1 : hashStruct K pb ts (txt "EIP712Domain") dom = some ds := by
        unfold hashStruct
        rw [encData_mono _ _ _ _ g1]
        exact k1
      have a2 : hashStruct K pb ts p data = some hh := by
        unfold hashStruct
        rw [encData_mono _ _ _ _ g]
        exact k
      rw [a1, a2]
      exact h
    · cases h

end
end Typed
