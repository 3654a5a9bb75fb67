import Verif.Erc20.WeightsLemmas
/-!
# Weights of assets for staking (C95)
-/
namespace Erc20.Weights

/-- **What an update does to the weight**: below ten it goes up or down by exactly one, whatever the magnitude, but never below one; from
ten on by 5, 15 or 30 per cent of itself, rounded down. It is refused only at weight one downwards and at weight zero. -/
theorem update_exact {s : St} {d : Nat} {a : Asset} (ha : s.assets d = some a) (m : Magnitude) (up : Bool) :
    (update s d m up).assets d = some { a with weight := (
      if a.weight = 0 then 0
      else if a.weight < 10 then (if up then a.weight + 1 else max 1 (a.weight - 1))
      else if up then a.weight + a.weight * share m / 100
      else a.weight - a.weight * share m / 100) } := by
  rw [← percent_share]
  have key : ∀ w p, adjust a.weight m up = some (w, p) → (update s d m up).assets d = some { a with weight := w } := by
    intro w p h
    unfold update
    rw [ha]
    dsimp only
    rw [h]
    exact if_pos rfl
  have keep : adjust a.weight m up = none → (update s d m up).assets d = some a := by
    intro h
    unfold update
    rw [ha]
    dsimp only
    rw [h]
    exact ha
  by_cases h0 : a.weight = 0
  · rw [if_pos h0, keep (by unfold adjust; rw [if_pos (by omega), if_pos h0]), ← h0]
  rw [if_neg h0]
  by_cases h10 : a.weight < 10
  · rw [if_pos h10]
    cases up with
    | true => exact key _ (oneOver a.weight) (by unfold adjust; rw [if_pos h10, if_neg h0]; rfl)
    | false =>
      rw [if_neg (by decide)]
      by_cases h1 : a.weight = 1
      · rw [keep (by unfold adjust; rw [if_pos h10, if_neg h0, if_neg (by decide), if_pos h1]), h1, show max 1 (1 - 1) = 1 from rfl, ← h1]
      · rw [show max 1 (a.weight - 1) = a.weight - 1 by omega]
        exact key _ (oneOver a.weight) (by unfold adjust; rw [if_pos h10, if_neg h0, if_neg (by decide), if_neg h1])
  · rw [if_neg h10]
    cases up with
    | true => exact key _ m.percent (by unfold adjust; rw [if_neg h10])
    | false => exact key _ m.percent (by unfold adjust; rw [if_neg h10])

example : ((run init [.propose 0 9, .update 0 .high true, .update 0 .high true]).assets 0).map (·.weight) = some 13 := by decide +kernel

/-- **Weights never reach zero**, whatever is added, removed, reactivated and updated, if assets are added with a weight (as proposals of
the older kind make sure). -/
theorem weights_positive_partial (ops : List Op) (hops : ∀ d w, Op.addMsg d w ∈ ops → w ≠ 0) : Positive (run init ops) := by
  suffices ∀ s, Positive s → Positive (run s ops) from this init (fun _ _ h => nomatch h)
  induction ops with
  | nil => exact fun s h => h
  | cons op ops ih =>
    intro s h
    exact ih (fun d w hm => hops d w (List.mem_cons_of_mem _ hm)) _ (positive_step h op (fun d w e => hops d w (e ▸ List.mem_cons_self)))

example : ((run init [.propose 0 12, .update 0 .high false, .update 0 .high false, .remove 0, .propose 0 3]).assets 0).map (·.weight) = some 3 := by
  decide +kernel

/-- **Adding an asset**: a new one gets the weight asked for, an active one stays as it is, and an archived one becomes active with the weight
asked for, unless that is zero. Other assets stay. -/
theorem add_exact (s : St) (d w : Nat) :
    (step s (.addMsg d w)).assets d = some (match s.assets d with
      | none => ⟨w, false⟩
      | some a => if a.archived = true ∧ w ≠ 0 then ⟨w, false⟩ else a) ∧
    ∀ d', d' ≠ d → (step s (.addMsg d w)).assets d' = s.assets d' := by
  show (add s d w).assets d = _ ∧ ∀ d', d' ≠ d → (add s d w).assets d' = _
  unfold add
  cases ha : s.assets d with
  | none => exact ⟨if_pos rfl, fun d' h => if_neg h⟩
  | some a =>
    dsimp only
    by_cases hr : a.archived = false
    · rw [if_pos hr, if_neg (by rw [hr]; exact fun h => nomatch h.1)]
      exact ⟨ha, fun _ _ => rfl⟩
    · have ht : a.archived = true := by
        cases e : a.archived with
        | true => rfl
        | false => exact absurd e hr
      rw [if_neg hr]
      by_cases hw : w = 0
      · rw [if_pos hw, if_neg (fun h => h.2 hw)]
        exact ⟨ha, fun _ _ => rfl⟩
      · rw [if_neg hw, if_pos ⟨ht, hw⟩]
        exact ⟨if_pos rfl, fun d' h => if_neg h⟩

example : (run init [.propose 0 12, .remove 0, .addMsg 0 0]).assets 0 = some ⟨1, true⟩ ∧
    (run init [.propose 0 12, .remove 0, .addMsg 0 6]).assets 0 = some ⟨6, false⟩ := by decide +kernel

/-- Missing in `weights_positive_partial`: the message accepts weight zero, such an asset counts nothing, and no update changes that. -/
theorem weight_zero_is_accepted :
    let s := run init [.addMsg 0 0, .delegate 0 100, .update 0 .high true, .update 0 .small false]
    (s.assets 0).map (·.weight) = some 0 ∧ s.delegs = [⟨0, 100, 0, 1⟩] := by decide +kernel

/-- **Equal amounts count equally, as the weight says** (`Fair`), after every history in which no archived asset is updated and all updates
come out even. -/
theorem fair_partial (ops : List Op) (hc : Careful init ops) : Fair (run init ops) := by
  suffices ∀ s, Fair s → Rested s → Positive s → Careful s ops → Fair (run s ops) from
    this init (fun _ h => nomatch h) (fun _ _ h => nomatch h) (fun _ _ h => nomatch h) hc
  clear hc
  induction ops with
  | nil => exact fun s h _ _ _ => h
  | cons op ops ih =>
    intro s h hr hp hc
    obtain ⟨h1, h2⟩ := fair_step h hr hp op ⟨hc.1, trivial⟩
    refine ih _ h1 h2 (positive_step hp op (fun d w e => ?_)) hc.2
    subst e
    exact hc.1

/-- When an update comes out even: from ten on, if the percentage of the weight is a whole number; below ten, for weights 1, 2, 4 and 5. -/
theorem even_iff {w : Nat} {m : Magnitude} {up : Bool} (h : ∃ r, adjust w m up = some r) :
    Even w m up ↔ if w < 10 then w = 1 ∨ w = 2 ∨ w = 4 ∨ w = 5 else w * share m % 100 = 0 := by
  rw [← percent_share]
  obtain ⟨⟨w', pct⟩, hr⟩ := h
  obtain ⟨h0, h1, h2⟩ := adjust_weight hr
  by_cases hw : w < 10
  · rw [if_pos hw]
    have hpct : pct = oneOver w := by
      unfold adjust at hr
      rw [if_pos hw, if_neg (by omega)] at hr
      split at hr
      · cases hr; rfl
      · split at hr
        · cases hr
        · cases hr; rfl
    have he : Even w m up ↔ w' * 100 = w * (if up then 100 + oneOver w else 100 - oneOver w) := by
      constructor
      · intro he
        have := he w' pct hr
        rw [hpct] at this
        exact this
      · intro he w'' pct' hr'
        rw [hr] at hr'
        cases hr'
        rw [hpct]
        exact he
    rw [he]
    clear he hr
    cases up with
    | true =>
      have e := (h1 hw).1 rfl
      subst e
      clear h1 h2 hpct
      rcases (show w = 1 ∨ w = 2 ∨ w = 3 ∨ w = 4 ∨ w = 5 ∨ w = 6 ∨ w = 7 ∨ w = 8 ∨ w = 9 by omega) with e | e | e | e | e | e | e | e | e <;>
        subst e <;> decide
    | false =>
      obtain ⟨e, h3⟩ := (h1 hw).2 rfl
      have e : w' = w - 1 := by omega
      subst e
      clear h1 h2 hpct
      rcases (show w = 2 ∨ w = 3 ∨ w = 4 ∨ w = 5 ∨ w = 6 ∨ w = 7 ∨ w = 8 ∨ w = 9 by omega) with e | e | e | e | e | e | e | e <;>
        subst e <;> decide
  · rw [if_neg hw]
    obtain ⟨hp, hu, hd⟩ := h2 (by omega)
    have hdm := Nat.div_add_mod (w * m.percent) 100
    have hle : w * m.percent / 100 ≤ w := by
      have : w * m.percent ≤ w * 100 := Nat.mul_le_mul_left _ (by have := percent_le m; omega)
      omega
    constructor
    · intro he
      have := he w' pct hr
      rw [hp] at this
      cases up with
      | true =>
        rw [if_pos rfl, hu rfl, Nat.mul_add] at this
        omega
      | false =>
        rw [if_neg (by decide), hd rfl, Nat.mul_sub] at this
        have := percent_le m
        have : w * m.percent ≤ w * 30 := Nat.mul_le_mul_left _ this
        omega
    · intro hz w'' pct' hr'
      rw [hr] at hr'
      cases hr'
      rw [hp]
      cases up with
      | true =>
        rw [if_pos rfl, hu rfl, Nat.mul_add]
        omega
      | false =>
        rw [if_neg (by decide), hd rfl, Nat.mul_sub]
        omega

example : Even 100 .small true ∧ Even 20 .high false ∧ ¬ Even 10 .small true ∧ ¬ Even 3 .medium false :=
  ⟨(even_iff ⟨_, rfl⟩).2 (by decide), (even_iff ⟨_, rfl⟩).2 (by decide), fun h => absurd ((even_iff ⟨_, rfl⟩).1 h) (by decide),
   fun h => absurd ((even_iff ⟨_, rfl⟩).1 h) (by decide)⟩

/-- A history as `fair_partial` asks for, with raises, a cut, archiving and reactivation. -/
def carefulOps : List Op :=
  [.propose 0 100, .delegate 0 7, .update 0 .high true, .update 0 .high false, .propose 1 4, .delegate 1 9, .update 1 .medium true, .delegate 1 9,
   .remove 0, .propose 0 20, .delegate 0 7]

example : Careful init carefulOps :=
  ⟨trivial, trivial,
   fun _ h => by cases h; exact ⟨rfl, (even_iff ⟨_, rfl⟩).2 (by decide)⟩,
   fun _ h => by cases h; exact ⟨rfl, (even_iff ⟨_, rfl⟩).2 (by decide)⟩,
   trivial, trivial,
   fun _ h => by cases h; exact ⟨rfl, (even_iff ⟨_, rfl⟩).2 (by decide)⟩,
   trivial, trivial, trivial, trivial, trivial⟩

example : (run init carefulOps).assets 0 = some ⟨20, false⟩ ∧ (run init carefulOps).assets 1 = some ⟨5, false⟩ ∧
    (run init carefulOps).delegs.length = 4 := by decide +kernel

/-- **Not fair otherwise**: at weight 10 a small raise leaves the weight as it is and raises all delegations by a twentieth. Then whoever
delegated before counts more than whoever delegates the same amount after, and is shown more than they delegated. -/
theorem equal_amounts_unequal_power :
    let s := run init [.propose 0 10, .delegate 0 1000, .update 0 .small true, .delegate 0 1000]
    (s.assets 0).map (·.weight) = some 10 ∧ s.delegs = [⟨0, 1000, 10 * 105, 100⟩, ⟨0, 1000, 10, 1⟩] := by decide +kernel

/-- **Delegations grow without bound while the weight stays**: after `n` small raises at weight 10 the weight is still 10, and a delegation
counts `1.05 ^ n` times what it should. -/
theorem power_grows_without_bound (n b : Nat) :
    let s := run (run init [.propose 0 10, .delegate 0 b]) (List.replicate n (.update 0 .small true))
    s.assets 0 = some ⟨10, false⟩ ∧ s.delegs = [⟨0, b, 10 * 105 ^ n, 100 ^ n⟩] := by
  have := small_raises n (run init [.propose 0 10, .delegate 0 b]) 0 b 10 1 rfl rfl
  rw [Nat.one_mul] at this
  exact this

/-- A raise and a cut that undo each other in the weight do not in delegations: 3 to 4 and back leaves 0.9975 of them. -/
theorem up_and_down_loses :
    let s := run init [.propose 0 3, .delegate 0 1000, .update 0 .small true, .update 0 .small false]
    (s.assets 0).map (·.weight) = some 3 ∧ s.delegs = [⟨0, 1000, 3 * 133 * 75, 100 * 100⟩] ∧ 3 * 133 * 75 < 3 * (100 * 100) := by
  decide +kernel

/-- An archived asset can be updated; when it is reactivated with weight 10 its old delegations count twenty times their amount. -/
theorem archived_assets_are_updated :
    let s := run init [.propose 0 10, .delegate 0 1000, .remove 0, .update 0 .small true]
    s.assets 0 = some ⟨2, true⟩ ∧ (step s (.propose 0 10)).assets 0 = some ⟨10, false⟩ ∧
      (step s (.propose 0 10)).delegs = [⟨0, 1000, 10 * 1 * 200 * 10, 10 * 100⟩] := by decide +kernel

/-- **Archiving and reactivating at the same weight changes nothing**: the asset is as before, and each delegation has its numerator and
denominator multiplied by the same number. -/
theorem archive_and_back {s : St} {d : Nat} {a : Asset} (ha : s.assets d = some a) (hr : a.archived = false) (hw : 1 < a.weight) :
    let s' := run s [.remove d, .propose d a.weight]
    s'.assets d = some a ∧ s'.delegs = scale s.delegs d a.weight a.weight := by
  intro s'
  have e1 : step s (.remove d) = { assets := setAt s.assets d (some { weight := 1, archived := true }), delegs := scale s.delegs d 1 a.weight } := by
    show remove s d = _
    unfold remove
    rw [ha]
    dsimp only
    rw [if_neg (by rw [hr]; decide), if_neg (by omega)]
  have e2 : s' = step (step s (.remove d)) (.propose d a.weight) := rfl
  rw [e1] at e2
  have e3 : setAt s.assets d (some ({ weight := 1, archived := true } : Asset)) d = some { weight := 1, archived := true } := if_pos rfl
  have e4 : s' = { assets := setAt (setAt s.assets d (some { weight := 1, archived := true })) d (some { weight := a.weight, archived := false }),
                   delegs := scale (scale s.delegs d 1 a.weight) d a.weight 1 } := by
    rw [e2]
    show (if a.weight = 0 then _ else add _ d a.weight) = _
    rw [if_neg (by omega)]
    unfold add
    dsimp only
    rw [e3]
    dsimp only
    rw [if_neg (by decide), if_neg (by omega)]
  rw [e4, scale_scale, Nat.one_mul, Nat.mul_one]
  refine ⟨?_, rfl⟩
  show setAt _ d _ d = some a
  cases a
  cases hr
  exact if_pos rfl

example : ((run init [.propose 0 10, .delegate 0 7]).assets 0) = some ⟨10, false⟩ := by decide +kernel

end Erc20.Weights
