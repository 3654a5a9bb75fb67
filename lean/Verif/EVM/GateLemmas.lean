import Verif.EVM.GateSpec
/-
Helper lemmas for the properties of access control and built-in contracts.
-/
namespace Gate

theorem digits_length (caps : Addr → Nat → Bool) (a : Addr) : (digits caps a).length = a.length := by
  simp [digits]

theorem digits_getElem? (caps : Addr → Nat → Bool) (a : Addr) (i : Nat) :
    (digits caps a)[i]? = a[i]?.map fun n => if caps a i then big n else small n := by
  simp only [digits, List.getElem?_map, List.getElem?_zipIdx, Option.map_map]
  cases a[i]? with
  | none => rfl
  | some n => simp

theorem digit_small (n : Fin 16) : Spec.digit (small n) n := by
  unfold Spec.digit small; split <;> omega

theorem digit_big (n : Fin 16) : Spec.digit (big n) n := by
  unfold Spec.digit big; split <;> omega

theorem digit_written (caps : Addr → Nat → Bool) {a : Addr} {i c : Nat} {n : Fin 16}
    (h : (digits caps a)[i]? = some c) (hn : a[i]? = some n) : Spec.digit c n := by
  rw [digits_getElem?, hn] at h
  simp only [Option.map_some, Option.some.injEq] at h
  subst h
  split
  · exact digit_big n
  · exact digit_small n

theorem reads_text (caps : Addr → Nat → Bool) {a : Addr} (h : a.length = 40) : Spec.ReadsAs (text caps a) a :=
  ⟨h, digits caps a, Or.inr (Or.inl rfl), by rw [digits_length, h], fun _ _ _ => digit_written caps⟩

theorem reads_digits (caps : Addr → Nat → Bool) {a : Addr} (h : a.length = 40) : Spec.ReadsAs (digits caps a) a :=
  ⟨h, digits caps a, Or.inl rfl, by rw [digits_length, h], fun _ _ _ => digit_written caps⟩

theorem bare_text (caps : Addr → Nat → Bool) (a : Addr) : bare (text caps a) = digits caps a := rfl

theorem value_small (n : Fin 16) : (value (small n)).isSome := by
  revert n; decide

theorem value_big (n : Fin 16) : (value (big n)).isSome := by
  revert n; decide

theorem value_digits (caps : Addr → Nat → Bool) (a : Addr) : (digits caps a).all (fun c => (value c).isSome) = true := by
  rw [List.all_eq_true]
  intro c hc
  obtain ⟨d, _, rfl⟩ := List.mem_map.1 hc
  split
  · exact value_big d.1
  · exact value_small d.1

theorem isAddress_text (caps : Addr → Nat → Bool) {a : Addr} : isAddress (text caps a) = true ↔ a.length = 40 := by
  unfold isAddress
  rw [bare_text, value_digits, digits_length]
  simp

theorem digit_ne_x (caps : Addr → Nat → Bool) {a : Addr} {c : Nat} (h : c ∈ digits caps a) : c ≠ 120 ∧ c ≠ 88 := by
  obtain ⟨d, _, rfl⟩ := List.mem_map.1 h
  split
  · unfold big; split <;> omega
  · unfold small; split <;> omega

theorem bare_digits (caps : Addr → Nat → Bool) (a : Addr) : bare (digits caps a) = digits caps a := by
  unfold bare
  split
  · next r h => exact absurd rfl (digit_ne_x caps (a := a) (c := 120) (by rw [h]; simp)).1
  · next r h => exact absurd rfl (digit_ne_x caps (a := a) (c := 88) (by rw [h]; simp)).2
  · rfl

theorem isAddress_digits (caps : Addr → Nat → Bool) {a : Addr} (h : a.length = 40) : isAddress (digits caps a) = true := by
  unfold isAddress
  rw [bare_digits, value_digits, digits_length, h]
  rfl

theorem digits_ne_text (caps : Addr → Nat → Bool) (a b : Addr) : text caps a ≠ digits caps b := by
  intro h
  exact absurd rfl (digit_ne_x caps (a := b) (c := 120) (by rw [← h]; simp [text])).1

/-- Membership by text is membership by address, on lists written in the usual way. -/
theorem listed_iff {caps : Addr → Nat → Bool} {l : List Text} (hv : l.all isAddress = true)
    (hu : Spec.Usual caps l) (a : Addr) : l.contains (text caps a) = true ↔ Spec.Listed l a := by
  rw [List.contains_iff_mem]
  constructor
  · intro h
    have := List.all_eq_true.1 hv _ h
    exact ⟨_, h, reads_text caps ((isAddress_text caps).1 this)⟩
  · rintro ⟨t, ht, hr⟩
    rw [← hu t ht a hr]; exact ht

theorem may_iff {caps : Addr → Nat → Bool} {p : Policy} (hv : p.list.all isAddress = true)
    (hu : Spec.Usual caps p.list) (signer caller : Addr) :
    may caps p signer caller = true ↔ Spec.Allows p signer caller := by
  unfold may Spec.Allows
  rw [← listed_iff hv hu signer, ← listed_iff hv hu caller]
  split
  · next h => simp [h]
  · next h => simp [h]
  · next h0 h2 =>
    constructor
    · intro h; cases h
    · rintro (⟨h, _⟩ | ⟨h, _⟩)
      · exact absurd h h0
      · exact absurd h h2

theorem may_of_listed {caps : Addr → Nat → Bool} {p : Policy} (h : p.access = 2) {signer : Addr}
    (hs : text caps signer ∈ p.list) (caller : Addr) : may caps p signer caller = true := by
  unfold may; rw [h]; simp [hs]

theorem validActive_iff (l : List Text) : validActive l = true ↔ l.Nodup ∧ ∀ t ∈ l, isAddress t = true := by
  induction l with
  | nil => simp [validActive]
  | cons t l ih =>
    simp only [validActive, Bool.and_eq_true, Bool.not_eq_true', ih, List.nodup_cons, List.mem_cons,
      forall_eq_or_imp]
    rw [← Bool.not_eq_true, List.contains_iff_mem]
    grind

theorem valid_iff (p : Policy) : p.valid = true ↔ p.access < 3 ∧ p.list.all isAddress = true := by
  simp only [Policy.valid, Bool.and_eq_true, decide_eq_true_eq]

theorem mem_sort (l : List Text) (t : Text) : t ∈ StableSort.sortBy textLe l ↔ t ∈ l :=
  (StableSort.sortBy_perm textLe l).mem_iff

theorem setParams_some {p q : Params} (h : setParams p = some q) :
    q.create = p.create ∧ q.call = p.call ∧ (∀ t, t ∈ q.active ↔ t ∈ p.active) ∧
    p.create.access < 3 ∧ p.call.access < 3 ∧ p.create.list.all isAddress = true ∧
    p.call.list.all isAddress = true ∧ p.active.all isAddress = true ∧ p.active.Nodup := by
  unfold setParams at h
  dsimp only at h
  split at h
  · next hc =>
    cases h
    simp only [Bool.and_eq_true, validActive_iff, valid_iff] at hc
    obtain ⟨⟨hn, ha⟩, ⟨h1, h2⟩, h3, h4⟩ := hc
    refine ⟨rfl, rfl, mem_sort _, h1, h3, h2, h4, ?_, ?_⟩
    · rw [List.all_eq_true]; intro t ht; exact ha t ((mem_sort _ t).2 ht)
    · exact (StableSort.sortBy_perm textLe p.active).nodup_iff.1 hn
  · cases h

theorem setParams_of {p : Params} (h1 : p.create.access < 3) (h2 : p.call.access < 3)
    (h3 : p.create.list.all isAddress = true) (h4 : p.call.list.all isAddress = true)
    (h5 : p.active.all isAddress = true) (h6 : p.active.Nodup) :
    setParams p = some { p with active := StableSort.sortBy textLe p.active } := by
  unfold setParams
  dsimp only
  rw [if_pos]
  simp only [Bool.and_eq_true, validActive_iff, valid_iff]
  refine ⟨⟨(StableSort.sortBy_perm textLe p.active).nodup_iff.2 h6, ?_⟩, ⟨h1, h3⟩, h2, h4⟩
  intro t ht
  exact List.all_eq_true.1 h5 t ((mem_sort _ t).1 ht)

theorem berlin_iff (a : Addr) :
    berlin.contains a = true ↔ ∃ n : Fin 16, 1 ≤ n.val ∧ n.val ≤ 9 ∧ a = List.replicate 39 0 ++ [n] := by
  rw [List.contains_iff_mem]
  unfold berlin
  rw [List.mem_map]
  constructor
  · rintro ⟨n, hn, rfl⟩
    refine ⟨n, ?_, ?_, rfl⟩ <;> revert n <;> decide
  · rintro ⟨n, h1, h2, rfl⟩
    refine ⟨n, ?_, rfl⟩
    revert n; decide

/-! ### One step -/

/-- Every kind of step, as an equation. -/
theorem call_eq (e : Env B) (s : St B) (signer c : Addr) (k : Kind) (to : Addr) (fits : Bool) :
    call e s signer c k to fits =
      if may e.caps e.params.call signer c then
        match e.find to with
        | .panic => none
        | .error => some s
        | .nothing => call.go c k to fits s
        | .contract b => call.go c k to fits { s with table := fun a => if a = to then some b else none }
      else some s := rfl

/-- What the table of built-in contracts may hold. -/
def Inv (e : Env B) (table : Addr → Option B) : Prop :=
  ∀ a b, table a = some b → berlin.contains a = true ∨ e.find a = .contract b

theorem go_cases {s t : St B} {c to : Addr} {k : Kind} {fits : Bool} (h : call.go c k to fits s = some t) :
    t.table = s.table ∧ t.started = s.started ∧
    ((fits = false ∧ t.log = s.log ∧ t.frames = s.frames) ∨
     (fits = true ∧ t.log = s.log ++ [.ran k c to (s.table to)])) := by
  unfold call.go at h
  split at h
  · next hf =>
    split at h
    · next b hb => cases h; exact ⟨rfl, rfl, Or.inr ⟨hf, by rw [hb]⟩⟩
    · next hb => cases h; exact ⟨rfl, rfl, Or.inr ⟨hf, by rw [hb]⟩⟩
  · next hf => cases h; exact ⟨rfl, rfl, Or.inl ⟨by simpa using hf, rfl, rfl⟩⟩

/-- What `find` gives at the address a call goes to. -/
def Seen (e : Env B) (to : Addr) (b : Option B) : Prop :=
  match e.find to with
  | .contract c => b = some c
  | .nothing => b = none
  | _ => False

theorem find_berlin {e : Env B} {a : Addr} (h : berlin.contains a = true) :
    e.find a = match e.own a with | none => .panic | some b => .contract b := by
  unfold Env.find Env.isActive
  rw [h, Bool.or_true, if_pos rfl]
  cases e.own a <;> rfl

theorem nothing_not_berlin {e : Env B} {a : Addr} (h : e.find a = .nothing) : berlin.contains a = false := by
  cases hb : berlin.contains a with
  | false => rfl
  | true =>
    rw [find_berlin hb] at h
    split at h <;> cases h

theorem table_seen {e : Env B} {s : St B} {to : Addr} (hi : Inv e s.table) (h : e.find to = .nothing) :
    s.table to = none := by
  cases ht : s.table to with
  | none => rfl
  | some b =>
    rcases hi to b ht with h1 | h1
    · rw [nothing_not_berlin h] at h1; cases h1
    · rw [h] at h1; cases h1

/-- The effect of a call, in full. -/
theorem call_cases {e : Env B} {s t : St B} {signer c to : Addr} {k : Kind} {fits : Bool} (hi : Inv e s.table)
    (h : call e s signer c k to fits = some t) :
    Inv e t.table ∧ t.started = s.started ∧
    ((t.log = s.log ∧ t.frames = s.frames ∧
        (may e.caps e.params.call signer c = false ∨ e.find to = .error ∨ fits = false)) ∨
     (may e.caps e.params.call signer c = true ∧ fits = true ∧
        ∃ b, Seen e to b ∧ t.log = s.log ++ [.ran k c to b])) := by
  rw [call_eq] at h
  split at h
  · next hm =>
    split at h
    · cases h
    · next he => cases h; exact ⟨hi, rfl, Or.inl ⟨rfl, rfl, Or.inr (Or.inl he)⟩⟩
    · next hn =>
      obtain ⟨h1, h2, h3⟩ := go_cases h
      refine ⟨by rw [h1]; exact hi, h2, ?_⟩
      rcases h3 with ⟨hf, hl, hfr⟩ | ⟨hf, hl⟩
      · exact Or.inl ⟨hl, hfr, Or.inr (Or.inr hf)⟩
      · refine Or.inr ⟨hm, hf, s.table to, ?_, hl⟩
        unfold Seen; rw [hn]; exact table_seen hi hn
    · next b hb =>
      obtain ⟨h1, h2, h3⟩ := go_cases h
      refine ⟨?_, h2, ?_⟩
      · rw [h1]
        intro a b' hab
        dsimp only at hab
        split at hab
        · next ha => cases hab; subst ha; exact Or.inr hb
        · cases hab
      · rcases h3 with ⟨hf, hl, hfr⟩ | ⟨hf, hl⟩
        · exact Or.inl ⟨hl, hfr, Or.inr (Or.inr hf)⟩
        · refine Or.inr ⟨hm, hf, some b, ?_, ?_⟩
          · unfold Seen; rw [hb]
          · rw [hl]; simp
  · next hm => cases h; exact ⟨hi, rfl, Or.inl ⟨rfl, rfl, Or.inl (by simpa using hm)⟩⟩

theorem create_cases {e : Env B} {s t : St B} {signer c new : Addr} {fits : Bool}
    (h : create e s signer c new fits = some t) :
    t.table = s.table ∧ t.started = s.started ∧
    ((t.log = s.log ∧ t.frames = s.frames ∧ (may e.caps e.params.create signer c = false ∨ fits = false)) ∨
     (may e.caps e.params.create signer c = true ∧ fits = true ∧ t.frames = new :: s.frames ∧
        t.log = s.log ++ [.deployed c new])) := by
  unfold create at h
  split at h
  · next hm =>
    split at h
    · next hf => cases h; exact ⟨rfl, rfl, Or.inr ⟨hm, hf, rfl, rfl⟩⟩
    · next hf => cases h; exact ⟨rfl, rfl, Or.inl ⟨rfl, rfl, Or.inr (by simpa using hf)⟩⟩
  · next hm => cases h; exact ⟨rfl, rfl, Or.inl ⟨rfl, rfl, Or.inl (by simpa using hm)⟩⟩

/-- What every event in the log has been checked for. -/
def Checked (e : Env B) (signer : Addr) : Event B → Prop
  | .ran _ c to b => may e.caps e.params.call signer c = true ∧ Seen e to b
  | .deployed c _ => may e.caps e.params.create signer c = true

theorem step_inv {e : Env B} {signer : Addr} {s t : St B} {o : Op} (h : step e signer s o = some t)
    (hi : Inv e s.table) (hl : ∀ x ∈ s.log, Checked e signer x) :
    Inv e t.table ∧ ∀ x ∈ t.log, Checked e signer x := by
  cases o with
  | leave => cases h; exact ⟨hi, hl⟩
  | call k to fits =>
    unfold step at h
    dsimp only at h
    split at h
    · cases h; exact ⟨hi, hl⟩
    · next c hc =>
      obtain ⟨h1, _, h3⟩ := call_cases (s := { s with started := true }) hi h
      refine ⟨h1, ?_⟩
      rcases h3 with ⟨h4, _⟩ | ⟨hm, _, b, hb, h4⟩
      · rw [h4]; exact hl
      · rw [h4]
        intro x hx
        rcases List.mem_append.1 hx with hx | hx
        · exact hl x hx
        · rw [List.mem_singleton.1 hx]; exact ⟨hm, hb⟩
  | create new fits =>
    unfold step at h
    dsimp only at h
    split at h
    · cases h; exact ⟨hi, hl⟩
    · next c hc =>
      obtain ⟨h1, _, h3⟩ := create_cases (s := { s with started := true }) h
      refine ⟨by rw [h1]; exact hi, ?_⟩
      rcases h3 with ⟨h4, _⟩ | ⟨hm, _, _, h4⟩
      · rw [h4]; exact hl
      · rw [h4]
        intro x hx
        rcases List.mem_append.1 hx with hx | hx
        · exact hl x hx
        · rw [List.mem_singleton.1 hx]; exact hm

theorem run_inv {e : Env B} {signer : Addr} (ops : List Op) : ∀ {s t : St B}, run e signer s ops = some t →
    Inv e s.table → (∀ x ∈ s.log, Checked e signer x) →
    Inv e t.table ∧ ∀ x ∈ t.log, Checked e signer x := by
  induction ops with
  | nil => intro s t h hi hl; cases h; exact ⟨hi, hl⟩
  | cons o os ih =>
    intro s t h hi hl
    unfold run at h
    split at h
    · cases h
    · next u hu =>
      obtain ⟨h1, h2⟩ := step_inv hu hi hl
      exact ih h h1 h2

theorem inv_start {e : Env B} {table : Addr → Option B}
    (h : ∀ a b, table a = some b → ∃ n : Fin 16, 1 ≤ n.val ∧ n.val ≤ 9 ∧ a = List.replicate 39 0 ++ [n]) :
    Inv e (start table).table := fun a b hab => Or.inl ((berlin_iff a).2 (h a b hab))

/-- A transaction that is over stays as it is. -/
theorem run_over {e : Env B} {signer : Addr} (ops : List Op) : ∀ {s : St B}, s.started = true → s.frames = [] →
    ∃ t, run e signer s ops = some t ∧ t.log = s.log := by
  induction ops with
  | nil => intro s _ _; exact ⟨s, rfl, rfl⟩
  | cons o os ih =>
    intro s hs hf
    have hc : s.caller signer = none := by unfold St.caller; rw [hs, hf]; rfl
    have : step e signer s o = some s := by
      cases o with
      | leave =>
        unfold step
        cases s
        cases hf
        rfl
      | call k to fits => unfold step; dsimp only; rw [hc]
      | create new fits => unfold step; dsimp only; rw [hc]
    unfold run
    rw [this]
    exact ih hs hf

/-- What is seen at an address is what was promised. -/
theorem seen_iff {e : Env B} (hv : e.params.active.all isAddress = true) (hu : Spec.Usual e.caps e.params.active)
    (a : Addr) (b : Option B) : Seen e a b ↔ Spec.Answers e a b := by
  unfold Spec.Answers
  rw [← listed_iff hv hu a, ← berlin_iff a]
  unfold Seen Env.find Env.isActive
  cases h1 : e.params.active.contains (text e.caps a) <;> cases h2 : berlin.contains a <;>
    simp only [Bool.or_true, Bool.true_or, Bool.or_false, Bool.false_eq_true, ↓reduceIte, or_true, true_or,
      or_self, or_false, false_or, true_and, not_true_eq_false, false_and, not_false_eq_true]
  · cases h : e.token a with
    | none => simp
    | some o => cases o with
      | none => simp
      | some c => simp [eq_comm]
  all_goals (cases h : e.own a <;> simp [eq_comm])

/-- An admitted call to an address where `b` is seen runs it. -/
theorem call_of_seen {e : Env B} {s : St B} {signer c to : Addr} {b : Option B} (k : Kind) (hi : Inv e s.table)
    (hm : may e.caps e.params.call signer c = true) (hb : Seen e to b) :
    ∃ t, call e s signer c k to true = some t ∧ t.log = s.log ++ [.ran k c to b] := by
  have hsome : ∃ t, call e s signer c k to true = some t := by
    rw [call_eq, if_pos hm]
    unfold Seen at hb
    split
    · next h => rw [h] at hb; exact hb.elim
    · exact ⟨_, rfl⟩
    · unfold call.go; rw [if_pos rfl]; split <;> exact ⟨_, rfl⟩
    · unfold call.go; rw [if_pos rfl]; split <;> exact ⟨_, rfl⟩
  obtain ⟨t, ht⟩ := hsome
  refine ⟨t, ht, ?_⟩
  obtain ⟨_, _, h3⟩ := call_cases hi ht
  rcases h3 with ⟨_, _, h | h | h⟩ | ⟨_, _, b', hb', hl⟩
  · rw [hm] at h; cases h
  · unfold Seen at hb; rw [h] at hb; exact hb.elim
  · cases h
  · rw [hl]
    have : b' = b := by
      unfold Seen at hb hb'
      split at hb
      · next c hc => rw [hc] at hb'; rw [hb, hb']
      · next hc => rw [hc] at hb'; rw [hb, hb']
      · exact hb.elim
    rw [this]

/-- Two transactions that differ only in their tables. -/
def Alike (e : Env B) (s t : St B) : Prop :=
  s.started = t.started ∧ s.frames = t.frames ∧ s.log = t.log ∧ Inv e s.table ∧ Inv e t.table

theorem go_alike {e : Env B} {s t : St B} {c to : Addr} {k : Kind} {fits : Bool} (h : Alike e s t)
    (ht : s.table to = t.table to) :
    ∃ u v, call.go c k to fits s = some u ∧ call.go c k to fits t = some v ∧ Alike e u v := by
  obtain ⟨h1, h2, h3, h4, h5⟩ := h
  unfold call.go
  rw [← ht]
  by_cases hf : fits = true
  · rw [if_pos hf, if_pos hf]
    cases s.table to with
    | none => exact ⟨_, _, rfl, rfl, h1, by rw [h2], by rw [h3], h4, h5⟩
    | some b => exact ⟨_, _, rfl, rfl, h1, h2, by rw [h3], h4, h5⟩
  · rw [if_neg hf, if_neg hf]; exact ⟨_, _, rfl, rfl, h1, h2, h3, h4, h5⟩

theorem call_alike {e : Env B} {s t : St B} {signer c to : Addr} {k : Kind} {fits : Bool} (h : Alike e s t) :
    (call e s signer c k to fits = none ∧ call e t signer c k to fits = none) ∨
    ∃ u v, call e s signer c k to fits = some u ∧ call e t signer c k to fits = some v ∧ Alike e u v := by
  rw [call_eq, call_eq]
  by_cases hm : may e.caps e.params.call signer c = true
  · rw [if_pos hm, if_pos hm]
    cases hf : e.find to with
    | panic => exact Or.inl ⟨rfl, rfl⟩
    | error => exact Or.inr ⟨s, t, rfl, rfl, h⟩
    | nothing => exact Or.inr (go_alike h (by rw [table_seen h.2.2.2.1 hf, table_seen h.2.2.2.2 hf]))
    | contract b =>
      refine Or.inr (go_alike ?_ rfl)
      have hi : Inv e fun a => if a = to then some b else none := by
        intro a b' hab
        dsimp only at hab
        split at hab
        · next ha => cases hab; subst ha; exact Or.inr hf
        · cases hab
      exact ⟨h.1, h.2.1, h.2.2.1, hi, hi⟩
  · rw [if_neg hm, if_neg hm]; exact Or.inr ⟨s, t, rfl, rfl, h⟩

theorem create_alike {e : Env B} {s t : St B} {signer c new : Addr} {fits : Bool} (h : Alike e s t) :
    ∃ u v, create e s signer c new fits = some u ∧ create e t signer c new fits = some v ∧ Alike e u v := by
  obtain ⟨h1, h2, h3, h4, h5⟩ := h
  unfold create
  split
  · split
    · exact ⟨_, _, rfl, rfl, h1, by rw [h2], by rw [h3], h4, h5⟩
    · exact ⟨_, _, rfl, rfl, h1, h2, h3, h4, h5⟩
  · exact ⟨_, _, rfl, rfl, h1, h2, h3, h4, h5⟩

theorem step_alike {e : Env B} {signer : Addr} {s t : St B} {o : Op} (h : Alike e s t) :
    (step e signer s o = none ∧ step e signer t o = none) ∨
    ∃ u v, step e signer s o = some u ∧ step e signer t o = some v ∧ Alike e u v := by
  have hc : s.caller signer = t.caller signer := by unfold St.caller; rw [h.1, h.2.1]
  obtain ⟨h1, h2, h3, h4, h5⟩ := h
  cases o with
  | leave => exact Or.inr ⟨_, _, rfl, rfl, h1, by rw [h2], h3, h4, h5⟩
  | call k to fits =>
    unfold step
    dsimp only
    rw [hc]
    cases t.caller signer with
    | none => exact Or.inr ⟨_, _, rfl, rfl, h1, h2, h3, h4, h5⟩
    | some c => exact call_alike ⟨rfl, h2, h3, h4, h5⟩
  | create new fits =>
    unfold step
    dsimp only
    rw [hc]
    cases t.caller signer with
    | none => exact Or.inr ⟨_, _, rfl, rfl, h1, h2, h3, h4, h5⟩
    | some c => exact Or.inr (create_alike ⟨rfl, h2, h3, h4, h5⟩)

theorem run_alike {e : Env B} {signer : Addr} (ops : List Op) : ∀ {s t : St B}, Alike e s t →
    (run e signer s ops).map St.log = (run e signer t ops).map St.log := by
  induction ops with
  | nil => intro s t h; simp only [run, Option.map_some, h.2.2.1]
  | cons o os ih =>
    intro s t h
    unfold run
    rcases step_alike (o := o) (signer := signer) h with ⟨h1, h2⟩ | ⟨u, v, h1, h2, h3⟩
    · rw [h1, h2]
    · rw [h1, h2]; exact ih h3

/-- A call by the signer that is refused ends the transaction. -/
theorem refused_tx {e : Env B} {signer to : Addr} {k : Kind} {fits : Bool} {table : Addr → Option B} {ops : List Op}
    {t : St B} (hm : may e.caps e.params.call signer signer ≠ true)
    (h : run e signer (start table) (.call k to fits :: ops) = some t) : t.log = [] := by
  have hs : step e signer (start table) (.call k to fits) = some { start table with started := true } := by
    unfold step
    dsimp only
    rw [show (start table).caller signer = some signer from rfl]
    dsimp only
    rw [call_eq, if_neg hm]
  unfold run at h
  rw [hs] at h
  dsimp only at h
  obtain ⟨u, hu, hl⟩ := run_over (e := e) (signer := signer) ops (s := { start table with started := true }) rfl rfl
  rw [hu] at h
  cases h
  exact hl

theorem digit_unique {c : Nat} {m n : Fin 16} (h1 : Spec.digit c m) (h2 : Spec.digit c n) : m = n := by
  unfold Spec.digit at h1 h2
  apply Fin.ext
  omega

theorem reads_unique {t : Text} {a b : Addr} (h1 : Spec.ReadsAs t a) (h2 : Spec.ReadsAs t b) : a = b := by
  obtain ⟨ha, d1, e1, l1, g1⟩ := h1
  obtain ⟨hb, d2, e2, l2, g2⟩ := h2
  have hd : d1 = d2 := by
    have x1 : t = d1 → t.length = 40 := fun h => by rw [h, l1]
    have x2 : t = d2 → t.length = 40 := fun h => by rw [h, l2]
    rcases e1 with e1 | e1 | e1 <;> rcases e2 with e2 | e2 | e2
    · rw [← e1, ← e2]
    · have := x1 e1; rw [e2] at this; simp only [List.length_cons] at this; omega
    · have := x1 e1; rw [e2] at this; simp only [List.length_cons] at this; omega
    · have := x2 e2; rw [e1] at this; simp only [List.length_cons] at this; omega
    · rw [e1] at e2; injection e2 with _ e2; injection e2
    · rw [e1] at e2; injection e2 with _ e2; injection e2 with e2
    · have := x2 e2; rw [e1] at this; simp only [List.length_cons] at this; omega
    · rw [e1] at e2; injection e2 with _ e2; injection e2 with e2
    · rw [e1] at e2; injection e2 with _ e2; injection e2
  subst hd
  apply List.ext_getElem (by rw [ha, hb])
  intro i hi hi'
  have hc : d1[i]? = some d1[i] := List.getElem?_eq_getElem (by omega)
  exact digit_unique (g1 i _ _ hc (List.getElem?_eq_getElem hi)) (g2 i _ _ hc (List.getElem?_eq_getElem hi'))

theorem value_digit {c : Nat} {n : Fin 16} (h : value c = some n) : Spec.digit c n := by
  unfold value at h
  unfold Spec.digit
  split at h
  · cases h; dsimp only; omega
  · split at h
    · cases h; dsimp only; omega
    · split at h
      · cases h; dsimp only; omega
      · cases h

theorem bare_cases (t : Text) : t = bare t ∨ t = 48 :: 120 :: bare t ∨ t = 48 :: 88 :: bare t := by
  unfold bare
  split
  · exact Or.inr (Or.inl rfl)
  · exact Or.inr (Or.inr rfl)
  · exact Or.inl rfl

theorem address_reads {t : Text} (h : isAddress t = true) :
    ∃ a, Spec.ReadsAs t a ∧ ∀ b, Spec.ReadsAs t b → b = a := by
  unfold isAddress at h
  rw [Bool.and_eq_true, decide_eq_true_eq, List.all_eq_true] at h
  obtain ⟨hl, hv⟩ := h
  have hr : Spec.ReadsAs t ((bare t).map fun c => (value c).getD 0) := by
    refine ⟨by rw [List.length_map, hl], bare t, bare_cases t, hl, ?_⟩
    intro i c n hc hn
    rw [List.getElem?_map, hc, Option.map_some] at hn
    cases hx : value c with
    | none =>
      have := hv c (List.mem_of_getElem? hc)
      rw [hx] at this; cases this
    | some m =>
      rw [hx] at hn
      cases hn
      exact value_digit hx
  exact ⟨_, hr, fun b hb => reads_unique hb hr⟩

theorem digit_value {c : Nat} {n : Fin 16} (h : Spec.digit c n) : (value c).isSome = true ∧ c ≠ 120 ∧ c ≠ 88 := by
  have hn := n.isLt
  unfold Spec.digit at h
  unfold value
  refine ⟨?_, by omega, by omega⟩
  split
  · rfl
  · split
    · rfl
    · split
      · rfl
      · omega

theorem isAddress_iff (t : Text) : isAddress t = true ↔ ∃ a, Spec.ReadsAs t a := by
  constructor
  · intro h; obtain ⟨a, ha, _⟩ := address_reads h; exact ⟨a, ha⟩
  · rintro ⟨a, ha, ds, hd, hl, hg⟩
    have hv : ∀ c ∈ ds, (value c).isSome = true ∧ c ≠ 120 ∧ c ≠ 88 := by
      intro c hc
      obtain ⟨i, hi, rfl⟩ := List.mem_iff_getElem.1 hc
      exact digit_value (hg i _ _ (List.getElem?_eq_getElem hi) (List.getElem?_eq_getElem (by omega)))
    have hb : bare t = ds := by
      rcases hd with rfl | rfl | rfl
      · unfold bare
        split
        · exact absurd rfl (hv 120 (by simp)).2.1
        · exact absurd rfl (hv 88 (by simp)).2.2
        · rfl
      · rfl
      · rfl
    unfold isAddress
    rw [hb, hl, Bool.and_eq_true, List.all_eq_true]
    exact ⟨rfl, fun c hc => (hv c hc).1⟩

theorem go_acts {s t : St B} {signer c to : Addr} {k : Kind} {b : Option B} (hs : s.started = true)
    (h : call.go c k to true s = some t) (hl : t.log = s.log ++ [.ran k c to b]) :
    (b = none → t.caller signer = some (if k = .call ∨ k = .staticcall then to else c) ∧
      ∃ u : St B, some { t with frames := t.frames.tail } = some u ∧ u.frames = s.frames) ∧
    (b ≠ none → t.frames = s.frames) := by
  unfold call.go at h
  rw [if_pos rfl] at h
  split at h
  · next x hx =>
    cases h
    have : some x = b := by simpa using hl
    subst this
    exact ⟨(fun h => nomatch h), fun _ => rfl⟩
  · next hx =>
    cases h
    have : none = b := by simpa using hl
    subst this
    refine ⟨fun _ => ⟨?_, _, rfl, rfl⟩, fun h => absurd rfl h⟩
    unfold St.caller
    dsimp only
    rw [hs]
    cases k <;> rfl

theorem call_acts {e : Env B} {s t : St B} {signer c to : Addr} {k : Kind} {b : Option B}
    (h : call e { s with started := true } signer c k to true = some t) (hl : t.log = s.log ++ [.ran k c to b]) :
    (b = none → t.caller signer = some (if k = .call ∨ k = .staticcall then to else c) ∧
      ∃ u, step e signer t .leave = some u ∧ u.frames = s.frames) ∧
    (b ≠ none → t.frames = s.frames) := by
  rw [call_eq] at h
  split at h
  · split at h
    · cases h
    · cases h; exact absurd hl (by simp)
    · exact go_acts (s := { s with started := true }) rfl h hl
    · exact go_acts (s := { s with started := true, table := _ }) rfl h hl
  · cases h; exact absurd hl (by simp)

end Gate
