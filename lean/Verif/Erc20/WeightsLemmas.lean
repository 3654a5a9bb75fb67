import Verif.Erc20.WeightsSpec
/-!
# Lemmas on weights of assets
-/
namespace Erc20.Weights

theorem percent_share (m : Magnitude) : m.percent = share m := by cases m <;> rfl

theorem percent_le (m : Magnitude) : m.percent ≤ 30 := by cases m <;> decide

/-- Below ten the weight goes up or down by exactly one; from ten on by 5, 15 or 30 per cent, rounded down. -/
theorem adjust_weight {w w' pct : Nat} {m : Magnitude} {up : Bool} (h : adjust w m up = some (w', pct)) :
    0 < w ∧ (w < 10 → (up = true → w' = w + 1) ∧ (up = false → w' + 1 = w ∧ 2 ≤ w)) ∧
      (10 ≤ w → pct = m.percent ∧ (up = true → w' = w + w * m.percent / 100) ∧ (up = false → w' = w - w * m.percent / 100)) := by
  unfold adjust at h
  split at h
  · rename_i h1
    split at h
    · cases h
    rename_i h2
    split at h
    · rename_i hu
      cases h
      refine ⟨by omega, fun _ => ⟨fun _ => rfl, fun e => ?_⟩, fun e => by omega⟩
      rw [hu] at e; cases e
    rename_i hu
    split at h
    · cases h
    cases h
    refine ⟨by omega, fun _ => ⟨fun e => absurd e hu, fun _ => by omega⟩, fun e => by omega⟩
  · rename_i h1
    cases h
    refine ⟨by omega, fun e => absurd e h1, fun _ => ⟨rfl, fun e => by rw [if_pos e], fun e => ?_⟩⟩
    rw [e]
    rfl

theorem adjust_pos {w w' pct : Nat} {m : Magnitude} {up : Bool} (h : adjust w m up = some (w', pct)) : 0 < w' := by
  obtain ⟨h0, h1, h2⟩ := adjust_weight h
  by_cases hw : w < 10
  · cases up with
    | true => have := (h1 hw).1 rfl; omega
    | false => have := (h1 hw).2 rfl; omega
  · cases up with
    | true => have := (h2 (by omega)).2.1 rfl; omega
    | false =>
      have e := (h2 (by omega)).2.2 rfl
      have hp := percent_le m
      have : w * m.percent ≤ w * 30 := Nat.mul_le_mul_left _ hp
      omega

theorem setAt_some {f : Nat → Option Asset} {i d : Nat} {x a : Asset} (h : setAt f i (some x) d = some a) : (d = i ∧ x = a) ∨ f d = some a := by
  unfold setAt at h
  split at h
  · rename_i e
    exact Or.inl ⟨e, Option.some.inj h⟩
  · exact Or.inr h

theorem positive_add {s : St} (h : Positive s) {d w : Nat} (hw : w ≠ 0) : Positive (add s d w) := by
  unfold add
  split
  · intro d' a ha
    rcases setAt_some ha with ⟨_, e⟩ | e
    · subst e; exact Nat.pos_of_ne_zero hw
    · exact h d' a e
  split
  · exact h
  · intro d' a ha
    rcases setAt_some ha with ⟨_, e⟩ | e
    · subst e; exact Nat.pos_of_ne_zero hw
    · exact h d' a e

theorem positive_step {s : St} (h : Positive s) (op : Op) (hop : ∀ d w, op = .addMsg d w → w ≠ 0) : Positive (step s op) := by
  cases op with
  | propose d w =>
    show Positive (if w = 0 then s else add s d w)
    split
    · exact h
    · exact positive_add h ‹_›
  | addMsg d w => exact positive_add h (hop d w rfl)
  | remove d =>
    show Positive (remove s d)
    unfold remove
    split
    · exact h
    split
    · exact h
    split <;>
    · intro d' a ha
      rcases setAt_some ha with ⟨_, e⟩ | e
      · subst e; exact Nat.one_pos
      · exact h d' a e
  | update d m up =>
    show Positive (update s d m up)
    unfold update
    split
    · exact h
    split
    · exact h
    · rename_i w pct hadj
      intro d' a ha
      rcases setAt_some ha with ⟨_, e⟩ | e
      · subst e; exact adjust_pos hadj
      · exact h d' a e
  | delegate d b =>
    show Positive (delegate s d b)
    unfold delegate
    split
    · exact h
    split <;> exact h

theorem mem_scale {l : List Deleg} {d p q : Nat} {x : Deleg} (h : x ∈ scale l d p q) :
    (x.denom ≠ d ∧ x ∈ l) ∨ ∃ y ∈ l, y.denom = d ∧ x = { y with num := y.num * p, den := y.den * q } := by
  unfold scale at h
  obtain ⟨y, hy, e⟩ := List.mem_map.1 h
  split at e
  · rename_i hd
    exact Or.inr ⟨y, hy, hd, e.symm⟩
  · rename_i hd
    subst e
    exact Or.inl ⟨hd, hy⟩

/-- Weight and delegations change together. -/
theorem fair_scale {s : St} (h : Fair s) {d w p q : Nat} {a : Asset} {b : Bool} (ha : s.assets d = some a) (hq : 0 < q)
    (hw : w * q = a.weight * p) :
    Fair { assets := setAt s.assets d (some { weight := w, archived := b }), delegs := scale s.delegs d p q } := by
  intro x hx
  rcases mem_scale hx with ⟨hd, hx⟩ | ⟨y, hy, hd, e⟩
  · obtain ⟨a', h1, h2⟩ := h x hx
    exact ⟨a', by show setAt s.assets d _ x.denom = _; unfold setAt; rw [if_neg hd]; exact h1, h2⟩
  · subst e
    obtain ⟨a', h1, h2, h3⟩ := h y hy
    rw [hd, ha] at h1
    cases h1
    refine ⟨_, by show setAt s.assets d _ y.denom = _; unfold setAt; exact if_pos hd, Nat.mul_pos h2 hq, ?_⟩
    show y.num * p = w * (y.den * q)
    rw [h3, Nat.mul_left_comm w, hw, Nat.mul_left_comm y.den, Nat.mul_assoc]

/-- Archived assets have weight one. -/
def Rested (s : St) : Prop := ∀ d a, s.assets d = some a → a.archived = true → a.weight = 1

theorem fair_set {s : St} (h : Fair s) {d : Nat} {x : Asset} (hx : ∀ a, s.assets d = some a → a.weight = x.weight) :
    Fair { s with assets := setAt s.assets d (some x) } := by
  intro y hy
  obtain ⟨a, h1, h2, h3⟩ := h y hy
  by_cases e : y.denom = d
  · refine ⟨x, by show setAt s.assets d _ _ = _; unfold setAt; exact if_pos e, h2, ?_⟩
    rw [h3, hx a (e ▸ h1)]
  · exact ⟨a, by show setAt s.assets d _ _ = _; unfold setAt; rw [if_neg e]; exact h1, h2, h3⟩

theorem rested_set {s : St} (h : Rested s) {d : Nat} {x : Asset} {l : List Deleg} (hx : x.archived = true → x.weight = 1) :
    Rested { assets := setAt s.assets d (some x), delegs := l } := by
  intro d' a ha hr
  rcases setAt_some ha with ⟨_, e⟩ | e
  · subst e; exact hx hr
  · exact h d' a e hr

theorem fair_add {s : St} (h : Fair s) (hr : Rested s) (d w : Nat) : Fair (add s d w) ∧ Rested (add s d w) := by
  unfold add
  split
  · rename_i hn
    exact ⟨fair_set h (fun a ha => by rw [hn] at ha; cases ha), rested_set hr (fun e => nomatch e)⟩
  rename_i a ha
  split
  · exact ⟨h, hr⟩
  rename_i hz
  have hz : a.archived = true := by
    cases e : a.archived with
    | true => rfl
    | false => exact absurd e hz
  split
  · exact ⟨h, hr⟩
  · exact ⟨fair_scale h ha Nat.one_pos (by rw [hr d a ha hz]; omega), rested_set hr (fun e => nomatch e)⟩

theorem fair_step {s : St} (h : Fair s) (hr : Rested s) (hp : Positive s) (op : Op) (hop : Careful s [op]) :
    Fair (step s op) ∧ Rested (step s op) := by
  cases op with
  | propose d w =>
    show Fair (if w = 0 then s else add s d w) ∧ Rested (if w = 0 then s else add s d w)
    split
    · exact ⟨h, hr⟩
    · exact fair_add h hr d w
  | addMsg d w => exact fair_add h hr d w
  | remove d =>
    show Fair (remove s d) ∧ Rested (remove s d)
    unfold remove
    split
    · exact ⟨h, hr⟩
    rename_i a ha
    split
    · exact ⟨h, hr⟩
    split
    · rename_i hle
      have := hp d a ha
      exact ⟨fair_set h (fun a' ha' => by rw [ha] at ha'; cases ha'; show a.weight = 1; omega), rested_set hr (fun _ => rfl)⟩
    · rename_i hle
      exact ⟨fair_scale h ha (by omega) (by omega), rested_set hr (fun _ => rfl)⟩
  | update d m up =>
    show Fair (update s d m up) ∧ Rested (update s d m up)
    unfold update
    split
    · exact ⟨h, hr⟩
    rename_i a ha
    split
    · exact ⟨h, hr⟩
    rename_i w pct hadj
    obtain ⟨h1, h2⟩ := hop.1 a ha
    exact ⟨fair_scale h ha (by decide) (h2 w pct hadj), rested_set hr (fun e => by rw [h1] at e; cases e)⟩
  | delegate d b =>
    show Fair (delegate s d b) ∧ Rested (delegate s d b)
    unfold delegate
    split
    · exact ⟨h, hr⟩
    rename_i a ha
    split
    · exact ⟨h, hr⟩
    · refine ⟨fun x hx => ?_, hr⟩
      rcases List.mem_append.1 hx with hx | hx
      · exact h x hx
      · cases List.mem_singleton.1 hx
        exact ⟨a, ha, Nat.one_pos, (Nat.mul_one _).symm⟩

theorem small_raises (n : Nat) (s : St) (d b : Nat) (x y : Nat) (ha : s.assets d = some ⟨10, false⟩) (hd : s.delegs = [⟨d, b, x, y⟩]) :
    (run s (List.replicate n (.update d .small true))).assets d = some ⟨10, false⟩ ∧
      (run s (List.replicate n (.update d .small true))).delegs = [⟨d, b, x * 105 ^ n, y * 100 ^ n⟩] := by
  induction n generalizing s x y with
  | zero => exact ⟨ha, by rw [Nat.pow_zero, Nat.mul_one, Nat.mul_one]; exact hd⟩
  | succ n ih =>
    rw [List.replicate_succ]
    have e : step s (.update d .small true) = { assets := setAt s.assets d (some ⟨10, false⟩), delegs := [⟨d, b, x * 105, y * 100⟩] } := by
      show update s d .small true = _
      unfold update
      rw [ha]
      show ({ assets := setAt s.assets d (some ⟨10, false⟩), delegs := scale s.delegs d 105 100 } : St) = _
      rw [hd]
      unfold scale
      rw [List.map_cons, if_pos rfl]
      rfl
    have := ih (step s (.update d .small true)) (x * 105) (y * 100) (by rw [e]; exact if_pos rfl) (by rw [e])
    show (run (step s _) _).assets d = _ ∧ (run (step s _) _).delegs = _
    rw [Nat.pow_succ', Nat.pow_succ', ← Nat.mul_assoc, ← Nat.mul_assoc]
    exact this

theorem scale_scale (l : List Deleg) (d p q p' q' : Nat) : scale (scale l d p q) d p' q' = scale l d (p * p') (q * q') := by
  unfold scale
  rw [List.map_map]
  refine List.map_congr_left (fun x _ => ?_)
  show (if (if x.denom = d then { x with num := x.num * p, den := x.den * q } else x : Deleg).denom = d then _ else _) = _
  by_cases h : x.denom = d
  · simp only [if_pos h, Nat.mul_assoc]
  · simp only [if_neg h]

end Erc20.Weights
