import Verif.Typed.DataSpec
/-!
# The text of a type determines the types it uses
-/
namespace Typed

/-! ## Which types are listed -/

theorem mem_addAll {found more : List Bytes} {x : Bytes} : x ∈ addAll found more ↔ x ∈ found ∨ x ∈ more := by
  unfold addAll
  induction more generalizing found with
  | nil => simp
  | cons d ds ih =>
    rw [List.foldl_cons, ih]
    split
    · rename_i h
      rw [List.contains_iff_mem] at h
      rw [List.mem_cons]
      constructor
      · rintro (h' | h')
        · exact .inl h'
        · exact .inr (.inr h')
      · rintro (h' | h' | h')
        · exact .inl h'
        · exact .inl (h' ▸ h)
        · exact .inr h'
    · rw [List.mem_append, List.mem_singleton, List.mem_cons]
      constructor
      · rintro ((h' | h') | h')
        · exact .inl h'
        · exact .inr (.inl h')
        · exact .inr (.inr h')
      · rintro (h' | h' | h')
        · exact .inl (.inl h')
        · exact .inl (.inr h')
        · exact .inr h'

theorem prefix_addAll (found more : List Bytes) : found <+: addAll found more := by
  unfold addAll
  induction more generalizing found with
  | nil => exact List.prefix_refl _
  | cons d ds ih =>
    rw [List.foldl_cons]
    split
    · exact ih found
    · exact (List.prefix_append found [d]).trans (ih _)

/-- How many types are not found yet. -/
def left (ts : Types) (found : List Bytes) : Nat := (ts.filter (fun e => !found.contains e.1)).length

theorem left_mono {ts : Types} {a b : List Bytes} (h : ∀ x ∈ a, x ∈ b) : left ts b ≤ left ts a := by
  unfold left
  induction ts with
  | nil => exact Nat.le_refl _
  | cons e ts ih =>
    by_cases ha : e.1 ∈ a
    · have hb := h _ ha
      simp only [List.filter_cons, List.contains_iff_mem.2 ha, List.contains_iff_mem.2 hb]
      simpa using ih
    · by_cases hb : e.1 ∈ b
      · have ha' : a.contains e.1 = false := by
          rw [Bool.eq_false_iff]
          exact fun hh => ha (List.contains_iff_mem.1 hh)
        simp only [List.filter_cons, ha', List.contains_iff_mem.2 hb]
        simp only [Bool.not_true, Bool.not_false, if_true, Bool.false_eq_true, if_false, List.length_cons]
        omega
      · have ha' : a.contains e.1 = false := by
          rw [Bool.eq_false_iff]
          exact fun hh => ha (List.contains_iff_mem.1 hh)
        have hb' : b.contains e.1 = false := by
          rw [Bool.eq_false_iff]
          exact fun hh => hb (List.contains_iff_mem.1 hh)
        simp only [List.filter_cons, ha', hb']
        simp only [Bool.not_false, if_true, List.length_cons]
        omega

theorem left_lt {ts : Types} {found : List Bytes} {p : Bytes} {fs : List Field} (hm : (p, fs) ∈ ts) (hp : p ∉ found) :
    left ts (found ++ [p]) < left ts found := by
  unfold left
  induction ts with
  | nil => cases hm
  | cons e ts ih =>
    have hmono : (ts.filter (fun e => !(found ++ [p]).contains e.1)).length ≤
        (ts.filter (fun e => !found.contains e.1)).length := left_mono (ts := ts) (a := found) (b := found ++ [p])
          (fun x hx => List.mem_append_left _ hx)
    rcases List.mem_cons.1 hm with he | he
    · have h1 : found.contains e.1 = false := by
        rw [Bool.eq_false_iff]
        intro hh
        rw [← he] at hh
        exact hp (List.contains_iff_mem.1 hh)
      have h2 : (found ++ [p]).contains e.1 = true := by
        rw [List.contains_iff_mem, ← he]
        simp
      simp only [List.filter_cons, h1, h2]
      simp only [Bool.not_true, Bool.not_false, if_true, Bool.false_eq_true, if_false, List.length_cons]
      omega
    · have := ih he
      by_cases h1 : found.contains e.1 = true
      · have h2 : (found ++ [p]).contains e.1 = true := by
          rw [List.contains_iff_mem] at h1 ⊢
          exact List.mem_append_left _ h1
        simp only [List.filter_cons, h1, h2]
        simpa using this
      · have h1' : found.contains e.1 = false := by
          rw [Bool.eq_false_iff]
          exact h1
        simp only [List.filter_cons, h1']
        split
        · simp only [Bool.not_false, if_true, List.length_cons]
          omega
        · simp only [Bool.not_false, if_true, List.length_cons]
          omega

theorem foldl_done {ts : Types} {n : Nat}
    (ih : ∀ (p : Bytes) (found : List Bytes), left ts found < n →
      (∀ x ∈ found, x ∈ deps ts n p found) ∧ found <+: deps ts n p found ∧
      ((KV.get ts (trim p)).isSome → trim p ∈ deps ts n p found) ∧
      (∀ x ∈ deps ts n p found, x ∈ found ∨ (KV.get ts x).isSome) ∧
      (∀ x ∈ deps ts n p found, x ∉ found → ∀ fs, KV.get ts x = some fs → ∀ f ∈ fs,
        (KV.get ts (trim f.type)).isSome → trim f.type ∈ deps ts n p found) ∧
      (∀ x ∈ deps ts n p found, x ∈ found ∨ x = trim p ∨ ∃ e ∈ ts, ∃ f ∈ e.2, x = trim f.type)) :
    ∀ (fs : List Field) (found : List Bytes), left ts found < n →
      let r := fs.foldl (fun f fld => addAll f (deps ts n fld.type f)) found
      found <+: r ∧
      (∀ f ∈ fs, (KV.get ts (trim f.type)).isSome → trim f.type ∈ r) ∧
      (∀ x ∈ r, x ∈ found ∨ (KV.get ts x).isSome) ∧
      (∀ x ∈ r, x ∉ found → ∀ fs', KV.get ts x = some fs' → ∀ f ∈ fs',
        (KV.get ts (trim f.type)).isSome → trim f.type ∈ r) ∧
      (∀ x ∈ r, x ∈ found ∨ (∃ f ∈ fs, x = trim f.type) ∨ ∃ e ∈ ts, ∃ f ∈ e.2, x = trim f.type) := by
  intro fs
  induction fs with
  | nil =>
    intro found _
    refine ⟨List.prefix_refl _, fun f hf => (List.not_mem_nil hf).elim, fun x hx => .inl hx, ?_, fun x hx => .inl hx⟩
    intro x hx hn
    exact (hn hx).elim
  | cons g gs ihf =>
    intro found hl
    obtain ⟨a1, a2, a3, a4, a5, a6⟩ := ih g.type found hl
    rw [List.foldl_cons]
    have hmem : ∀ x, x ∈ addAll found (deps ts n g.type found) ↔ x ∈ deps ts n g.type found := by
      intro x
      rw [mem_addAll]
      exact ⟨fun h => h.elim (a1 x) id, .inr⟩
    have hl' : left ts (addAll found (deps ts n g.type found)) < n :=
      Nat.lt_of_le_of_lt (left_mono (fun x hx => (hmem x).2 (a1 x hx))) hl
    obtain ⟨b1, b2, b3, b4, b5⟩ := ihf _ hl'
    refine ⟨(prefix_addAll _ _).trans b1, ?_, ?_, ?_, ?_⟩
    · intro f hf hs
      rcases List.mem_cons.1 hf with rfl | hf
      · exact b1.subset ((hmem _).2 (a3 hs))
      · exact b2 f hf hs
    · intro x hx
      rcases b3 x hx with h | h
      · exact a4 x ((hmem x).1 h)
      · exact .inr h
    · intro x hx hn fs' hfs' f hf hs
      by_cases hx' : x ∈ addAll found (deps ts n g.type found)
      · exact b1.subset ((hmem _).2 (a5 x ((hmem x).1 hx') hn fs' hfs' f hf hs))
      · exact b4 x hx hx' fs' hfs' f hf hs
    · intro x hx
      rcases b5 x hx with h | ⟨f, hf, h⟩ | h
      · rcases a6 x ((hmem x).1 h) with h | h | h
        · exact .inl h
        · exact .inr (.inl ⟨g, List.mem_cons_self, h⟩)
        · exact .inr (.inr h)
      · exact .inr (.inl ⟨f, List.mem_cons_of_mem _ hf, h⟩)
      · exact .inr (.inr h)

theorem deps_spec (ts : Types) (n : Nat) : ∀ (p : Bytes) (found : List Bytes), left ts found < n →
      (∀ x ∈ found, x ∈ deps ts n p found) ∧ found <+: deps ts n p found ∧
      ((KV.get ts (trim p)).isSome → trim p ∈ deps ts n p found) ∧
      (∀ x ∈ deps ts n p found, x ∈ found ∨ (KV.get ts x).isSome) ∧
      (∀ x ∈ deps ts n p found, x ∉ found → ∀ fs, KV.get ts x = some fs → ∀ f ∈ fs,
        (KV.get ts (trim f.type)).isSome → trim f.type ∈ deps ts n p found) ∧
      (∀ x ∈ deps ts n p found, x ∈ found ∨ x = trim p ∨ ∃ e ∈ ts, ∃ f ∈ e.2, x = trim f.type) := by
  induction n with
  | zero => intro p found h; omega
  | succ n ih =>
    intro p found hl
    unfold deps
    by_cases hc : found.contains (trim p) = true
    · rw [if_pos hc]
      exact ⟨fun x hx => hx, List.prefix_refl _, fun _ => List.contains_iff_mem.1 hc, fun x hx => .inl hx,
        fun x hx hn => (hn hx).elim, fun x hx => .inl hx⟩
    · rw [if_neg hc]
      cases hg : KV.get ts (trim p) with
      | none =>
        dsimp only
        exact ⟨fun x hx => hx, List.prefix_refl _, (fun h => nomatch h), fun x hx => .inl hx,
          fun x hx hn => (hn hx).elim, fun x hx => .inl hx⟩
      | some fs =>
        dsimp only
        have hp : trim p ∉ found := fun hh => hc (List.contains_iff_mem.2 hh)
        have hmem := KV.mem_of_get hg
        have hl' : left ts (found ++ [trim p]) < n := by
          have := left_lt hmem hp
          omega
        obtain ⟨b1, b2, b3, b4, b5⟩ := foldl_done ih fs (found ++ [trim p]) hl'
        have hpm := b1.subset (List.mem_append_right found List.mem_cons_self : trim p ∈ found ++ [trim p])
        refine ⟨fun x hx => b1.subset (List.mem_append_left _ hx), (List.prefix_append _ _).trans b1, fun _ => hpm, ?_, ?_, ?_⟩
        · intro x hx
          rcases b3 x hx with h | h
          · rcases List.mem_append.1 h with h | h
            · exact .inl h
            · rw [List.mem_singleton.1 h, hg]
              exact .inr rfl
          · exact .inr h
        · intro x hx hn fs' hfs' f hf hs
          by_cases hxp : x = trim p
          · rw [hxp, hg] at hfs'
            cases hfs'
            exact b2 f hf hs
          · refine b4 x hx ?_ fs' hfs' f hf hs
            rw [List.mem_append, List.mem_singleton]
            exact fun hh => hh.elim hn hxp
        · intro x hx
          rcases b5 x hx with h | ⟨f, hf, h⟩ | h
          · rcases List.mem_append.1 h with h | h
            · exact .inl h
            · exact .inr (.inl (List.mem_singleton.1 h))
          · exact .inr (.inr ⟨_, hmem, f, hf, h⟩)
          · exact .inr (.inr h)

/-- The list of types is complete: it holds the type itself and, with each type, the types its fields use. -/
theorem listed_spec {ts : Types} {p : Bytes} (htp : trim p = p) (hp : (KV.get ts p).isSome) :
    (∃ others, listed ts p = p :: others) ∧
    (∀ x ∈ listed ts p, (KV.get ts x).isSome) ∧
    (∀ x ∈ listed ts p, ∀ f ∈ fieldsOf ts x, (KV.get ts (trim f.type)).isSome → trim f.type ∈ listed ts p) ∧
    (∀ x ∈ listed ts p, x = p ∨ ∃ e ∈ ts, ∃ f ∈ e.2, x = trim f.type) := by
  have hl : left ts [] < ts.length + 1 := by
    unfold left
    exact Nat.lt_succ_of_le (List.length_filter_le _ _)
  obtain ⟨_, _, a3, a4, a5, a6⟩ := deps_spec ts (ts.length + 1) p [] hl
  rw [htp] at a3 a6
  have hpm := a3 hp
  have hhead : ∃ others, deps ts (ts.length + 1) p [] = p :: others := by
    unfold deps
    rw [if_neg (by simp), htp]
    cases hg : KV.get ts p with
    | none => rw [hg] at hp; cases hp
    | some fs =>
      dsimp only
      have hmem := KV.mem_of_get hg
      have hl' : left ts ([] ++ [p]) < ts.length := by
        have := left_lt hmem (found := []) (fun h => nomatch h)
        omega
      obtain ⟨b1, _⟩ := foldl_done (deps_spec ts ts.length) fs ([] ++ [p]) hl'
      obtain ⟨t, ht⟩ := b1
      exact ⟨t, ht.symm⟩
  obtain ⟨others, ho⟩ := hhead
  have hlist : listed ts p = p :: StableSort.sortBy ble others := by
    unfold listed
    rw [ho]
  have hmem : ∀ x, x ∈ listed ts p ↔ x ∈ deps ts (ts.length + 1) p [] := by
    intro x
    rw [hlist, ho, List.mem_cons, List.mem_cons, (StableSort.sortBy_perm ble others).mem_iff]
  refine ⟨⟨_, hlist⟩, ?_, ?_, ?_⟩
  · intro x hx
    exact (a4 x ((hmem x).1 hx)).resolve_left (fun h => nomatch h)
  · intro x hx f hf hs
    rw [hmem] at hx ⊢
    unfold fieldsOf at hf
    cases hg : KV.get ts x with
    | none => rw [hg] at hf; cases hf
    | some fs =>
      rw [hg] at hf
      exact a5 x hx (fun h => nomatch h) fs hg f hf hs
  · intro x hx
    exact (a6 x ((hmem x).1 hx)).resolve_left (fun h => nomatch h)

/-! ## Reading the text back -/

/-- The four characters that structure the text. -/
def Special (c : UInt8) : Prop := c = 0x20 ∨ c = 0x28 ∨ c = 0x29 ∨ c = 0x2c

theorem clean_not {s : Bytes} (h : Clean s) : ∀ c ∈ s, ¬Special c := by
  intro c hc hs
  obtain ⟨h1, h2, h3, h4⟩ := h c hc
  rcases hs with h | h | h | h
  · exact h1 h
  · exact h2 h
  · exact h3 h
  · exact h4 h

theorem cut {a a' r r' : Bytes} {c c' : UInt8} (ha : Clean a) (ha' : Clean a') (hc : Special c) (hc' : Special c')
    (h : a ++ c :: r = a' ++ c' :: r') : a = a' ∧ c = c' ∧ r = r' := by
  induction a generalizing a' with
  | nil =>
    cases a' with
    | nil =>
      rw [List.nil_append, List.nil_append, List.cons.injEq] at h
      exact ⟨rfl, h⟩
    | cons d ds =>
      rw [List.nil_append, List.cons_append, List.cons.injEq] at h
      exact (clean_not ha' d List.mem_cons_self (h.1 ▸ hc)).elim
  | cons e es ih =>
    cases a' with
    | nil =>
      rw [List.nil_append, List.cons_append, List.cons.injEq] at h
      exact (clean_not ha e List.mem_cons_self (h.1 ▸ hc')).elim
    | cons d ds =>
      rw [List.cons_append, List.cons_append, List.cons.injEq] at h
      obtain ⟨h1, h2, h3⟩ := ih (fun x hx => ha x (List.mem_cons_of_mem _ hx)) (fun x hx => ha' x (List.mem_cons_of_mem _ hx)) h.2
      exact ⟨by rw [h.1, h1], h2, h3⟩

/-- The fields' text with `)` for the last `,`. -/
def fieldsText : List Field → Bytes
  | [] => []
  | [f] => f.type ++ 0x20 :: (f.name ++ [0x29])
  | f :: g :: fs => f.type ++ 0x20 :: (f.name ++ 0x2c :: fieldsText (g :: fs))

theorem fieldsText_eq (f : Field) (fs : List Field) :
    ((f :: fs).map fieldText).flatten.dropLast ++ [0x29] = fieldsText (f :: fs) := by
  induction fs generalizing f with
  | nil =>
    have : ([f].map fieldText).flatten = (f.type ++ 0x20 :: f.name) ++ [0x2c] := by
      simp [fieldText]
    rw [this, List.dropLast_concat]
    simp [fieldsText]
  | cons g gs ih =>
    have hne : ((g :: gs).map fieldText).flatten ≠ [] := by
      simp [fieldText]
    rw [List.map_cons, List.flatten_cons, List.dropLast_append_of_ne_nil hne, List.append_assoc, ih g]
    simp [fieldText, fieldsText]

theorem blockText_nil (d : Bytes) : blockText d [] = d ++ [0x29] := by
  unfold blockText
  have : d ++ 0x28 :: (([] : List Field).map fieldText).flatten = d ++ [0x28] := rfl
  rw [this, List.dropLast_concat]

theorem blockText_cons (d : Bytes) (f : Field) (fs : List Field) :
    blockText d (f :: fs) = d ++ 0x28 :: fieldsText (f :: fs) := by
  unfold blockText
  have hne : ((f :: fs).map fieldText).flatten ≠ [] := by
    simp [fieldText]
  have : d ++ 0x28 :: ((f :: fs).map fieldText).flatten = (d ++ [0x28]) ++ ((f :: fs).map fieldText).flatten := by simp
  rw [this, List.dropLast_append_of_ne_nil hne, List.append_assoc, fieldsText_eq]
  simp

/-- A field whose type and name are clean. -/
def CleanField (f : Field) : Prop := Clean f.type ∧ Clean f.name

theorem fieldsText_inj {f f' : Field} {fs fs' : List Field} {r r' : Bytes} (h1 : ∀ g ∈ f :: fs, CleanField g)
    (h2 : ∀ g ∈ f' :: fs', CleanField g) (h : fieldsText (f :: fs) ++ r = fieldsText (f' :: fs') ++ r') :
    f :: fs = f' :: fs' ∧ r = r' := by
  induction fs generalizing f f' fs' with
  | nil =>
    have c1 := h1 f List.mem_cons_self
    have c2 := h2 f' List.mem_cons_self
    cases fs' with
    | nil =>
      simp only [fieldsText, List.append_assoc, List.cons_append] at h
      obtain ⟨e1, _, h⟩ := cut c1.1 c2.1 (.inl rfl) (.inl rfl) h
      obtain ⟨e2, _, h⟩ := cut c1.2 c2.2 (.inr (.inr (.inl rfl))) (.inr (.inr (.inl rfl))) h
      refine ⟨?_, h⟩
      obtain ⟨n, t⟩ := f
      obtain ⟨n', t'⟩ := f'
      cases e1
      cases e2
      rfl
    | cons g' gs' =>
      simp only [fieldsText, List.append_assoc, List.cons_append] at h
      obtain ⟨e1, _, h⟩ := cut c1.1 c2.1 (.inl rfl) (.inl rfl) h
      obtain ⟨e2, e3, h⟩ := cut c1.2 c2.2 (.inr (.inr (.inl rfl))) (.inr (.inr (.inr rfl))) h
      exact absurd e3 (by decide)
  | cons g gs ih =>
    have c1 := h1 f List.mem_cons_self
    have c2 := h2 f' List.mem_cons_self
    cases fs' with
    | nil =>
      simp only [fieldsText, List.append_assoc, List.cons_append] at h
      obtain ⟨e1, _, h⟩ := cut c1.1 c2.1 (.inl rfl) (.inl rfl) h
      obtain ⟨e2, e3, h⟩ := cut c1.2 c2.2 (.inr (.inr (.inr rfl))) (.inr (.inr (.inl rfl))) h
      exact absurd e3 (by decide)
    | cons g' gs' =>
      simp only [fieldsText, List.append_assoc, List.cons_append] at h
      obtain ⟨e1, _, h⟩ := cut c1.1 c2.1 (.inl rfl) (.inl rfl) h
      obtain ⟨e2, _, h⟩ := cut c1.2 c2.2 (.inr (.inr (.inr rfl))) (.inr (.inr (.inr rfl))) h
      obtain ⟨e4, e5⟩ := ih (fun x hx => h1 x (List.mem_cons_of_mem _ hx)) (fun x hx => h2 x (List.mem_cons_of_mem _ hx)) h
      refine ⟨?_, e5⟩
      rw [e4]
      obtain ⟨n, t⟩ := f
      obtain ⟨n', t'⟩ := f'
      cases e1
      cases e2
      rfl

theorem blockText_inj {d d' : Bytes} {fs fs' : List Field} {r r' : Bytes} (hd : Clean d) (hd' : Clean d')
    (h1 : ∀ g ∈ fs, CleanField g) (h2 : ∀ g ∈ fs', CleanField g)
    (h : blockText d fs ++ r = blockText d' fs' ++ r') : d = d' ∧ fs = fs' ∧ r = r' := by
  cases fs with
  | nil =>
    cases fs' with
    | nil =>
      rw [blockText_nil, blockText_nil, List.append_assoc, List.append_assoc] at h
      obtain ⟨e1, _, e2⟩ := cut hd hd' (.inr (.inr (.inl rfl))) (.inr (.inr (.inl rfl))) h
      exact ⟨e1, rfl, e2⟩
    | cons f' fs' =>
      rw [blockText_nil, blockText_cons, List.append_assoc, List.append_assoc] at h
      obtain ⟨_, e, _⟩ := cut hd hd' (.inr (.inr (.inl rfl))) (.inr (.inl rfl)) h
      exact absurd e (by decide)
  | cons f fs =>
    cases fs' with
    | nil =>
      rw [blockText_nil, blockText_cons, List.append_assoc, List.append_assoc] at h
      obtain ⟨_, e, _⟩ := cut hd hd' (.inr (.inl rfl)) (.inr (.inr (.inl rfl))) h
      exact absurd e (by decide)
    | cons f' fs' =>
      rw [blockText_cons, blockText_cons, List.append_assoc, List.append_assoc] at h
      obtain ⟨e1, _, h⟩ := cut hd hd' (.inr (.inl rfl)) (.inr (.inl rfl)) h
      obtain ⟨e2, e3⟩ := fieldsText_inj h1 h2 h
      exact ⟨e1, e2, e3⟩

theorem blockText_ne_nil (d : Bytes) (fs : List Field) : blockText d fs ≠ [] := by
  unfold blockText
  simp

/-- A list of types with their fields can be read back from its text. -/
theorem blocks_inj {l l' : List (Bytes × List Field)} (h1 : ∀ e ∈ l, Clean e.1 ∧ ∀ g ∈ e.2, CleanField g)
    (h2 : ∀ e ∈ l', Clean e.1 ∧ ∀ g ∈ e.2, CleanField g)
    (h : (l.map (fun e => blockText e.1 e.2)).flatten = (l'.map (fun e => blockText e.1 e.2)).flatten) : l = l' := by
  induction l generalizing l' with
  | nil =>
    cases l' with
    | nil => rfl
    | cons e l' =>
      rw [List.map_cons, List.flatten_cons] at h
      have h : blockText e.1 e.2 ++ _ = [] := h.symm
      exact (blockText_ne_nil _ _ (List.append_eq_nil_iff.1 h).1).elim
  | cons e l ih =>
    cases l' with
    | nil =>
      rw [List.map_cons, List.flatten_cons] at h
      have h : blockText e.1 e.2 ++ _ = [] := h
      exact (blockText_ne_nil _ _ (List.append_eq_nil_iff.1 h).1).elim
    | cons e' l' =>
      rw [List.map_cons, List.flatten_cons, List.map_cons, List.flatten_cons] at h
      have a1 := h1 e List.mem_cons_self
      have a2 := h2 e' List.mem_cons_self
      obtain ⟨e1, e2, e3⟩ := blockText_inj a1.1 a2.1 a1.2 a2.2 h
      rw [ih (fun x hx => h1 x (List.mem_cons_of_mem _ hx)) (fun x hx => h2 x (List.mem_cons_of_mem _ hx)) e3,
        Prod.ext (x := e) (y := e') e1 e2]

end Typed
