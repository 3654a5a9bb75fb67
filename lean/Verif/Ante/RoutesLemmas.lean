import Verif.Ante.RoutesSpec

/-! # Lemmas about the limiter -/

namespace Routes

theorem isDisabled_iff (url : Url) : isDisabled url = true ↔ url ∈ disabled := by
  unfold isDisabled
  rw [List.contains_iff_mem]

theorem eth_disabled : isDisabled ethUrl = true := by decide +kernel

/-- What the loop allows, exactly: nothing forbidden below, and no ladder too long. -/
structure Sound (inner : Bool) (lvl : Nat) (msgs : List Msg) : Prop where
  grants : ∀ d url, Within d (.grant url) msgs → url ∉ disabled
  others : ∀ d url carried, Within d (.other url carried) msgs → (inner = true ∨ 0 < d) →
    url ∉ disabled
  eths : ∀ d m, Within d (.eth m) msgs → ¬ (inner = true ∨ 0 < d)
  ladders : ∀ r target, Ladder r msgs target → r = 0 ∨ lvl + r < maxNested

theorem within_cons {d : Nat} {m x : Msg} {rest : List Msg} (h : Within d m (x :: rest)) :
    (d = 0 ∧ m = x) ∨ (∃ inner d', x = .exec inner ∧ d = d' + 1 ∧ Within d' m inner) ∨
      Within d m rest := by
  cases h with
  | listed hm =>
    rcases List.mem_cons.1 hm with h | h
    · exact Or.inl ⟨rfl, h⟩
    · exact Or.inr (Or.inr (.listed h))
  | wrapped he hw =>
    rcases List.mem_cons.1 he with h | h
    · exact Or.inr (Or.inl ⟨_, _, h.symm, rfl, hw⟩)
    · exact Or.inr (Or.inr (.wrapped h hw))

theorem within_tail {d : Nat} {m x : Msg} {rest : List Msg} (h : Within d m rest) :
    Within d m (x :: rest) := by
  cases h with
  | listed hm => exact .listed (List.mem_cons_of_mem _ hm)
  | wrapped he hw => exact .wrapped (List.mem_cons_of_mem _ he) hw

/-- Going down from a list with a first message. -/
theorem ladder_cons {r : Nat} {x : Msg} {rest target : List Msg} (h : Ladder r (x :: rest) target) :
    r = 0 ∨ (∃ inner r', x = .exec inner ∧ r = 1 + r' ∧ Ladder r' inner target) ∨
      (∃ r', Ladder r' rest target ∧ 0 < r' ∧ r = (if isExec x then 1 else 0) + r') := by
  generalize hm : x :: rest = msgs at h
  cases h with
  | stay => exact Or.inl rfl
  | @into r0 before inner after target h =>
    right
    cases before with
    | nil =>
      left
      rw [List.nil_append] at hm
      injection hm with h1 h2
      exact ⟨inner, r0, h1, by rw [List.countP_nil], h⟩
    | cons y ys =>
      right
      rw [List.cons_append] at hm
      injection hm with h1 h2
      subst h1
      refine ⟨ys.countP isExec + 1 + r0, ?_, by omega, ?_⟩
      · rw [h2]
        exact .into h
      · rw [List.countP_cons]
        omega

theorem ladder_tail {r : Nat} {x : Msg} {rest target : List Msg} (h : Ladder r rest target)
    (hr : 0 < r) : Ladder ((if isExec x then 1 else 0) + r) (x :: rest) target := by
  cases h with
  | stay => exact absurd hr (by decide)
  | @into r0 before inner after target h =>
    have := Ladder.into (before := x :: before) (after := after) h
    rw [List.countP_cons, List.cons_append] at this
    have e : (if isExec x then 1 else 0) + (before.countP isExec + 1 + r0) =
        before.countP isExec + (if isExec x = true then 1 else 0) + 1 + r0 := by omega
    rw [e]
    exact this

theorem allowed_iff (inner : Bool) (lvl : Nat) (msgs : List Msg) :
    allowed inner lvl msgs = true ↔ Sound inner lvl msgs := by
  match msgs with
  | [] =>
    rw [allowed]
    refine ⟨fun _ => ⟨?_, ?_, ?_, ?_⟩, fun _ => rfl⟩
    · intro d url h
      cases h with
      | listed h => exact absurd h List.not_mem_nil
      | wrapped h _ => exact absurd h List.not_mem_nil
    · intro d url c h
      cases h with
      | listed h => exact absurd h List.not_mem_nil
      | wrapped h _ => exact absurd h List.not_mem_nil
    · intro d m h
      cases h with
      | listed h => exact absurd h List.not_mem_nil
      | wrapped h _ => exact absurd h List.not_mem_nil
    · intro r t h
      generalize hm : ([] : List Msg) = msgs at h
      cases h with
      | stay => exact Or.inl rfl
      | into h => exact absurd hm.symm (by simp)
  | .exec ms :: rest =>
    have ih1 := allowed_iff true (lvl + 1) ms
    have ih2 := allowed_iff inner (lvl + 1) rest
    rw [allowed, allowedOne, raised, Bool.and_eq_true, Bool.and_eq_true, decide_eq_true_iff, ih1, ih2]
    constructor
    · rintro ⟨⟨hl, h1⟩, h2⟩
      refine ⟨?_, ?_, ?_, ?_⟩
      · intro d url h
        rcases within_cons h with ⟨_, e⟩ | ⟨i, d', e, _, hw⟩ | hw
        · exact nomatch e
        · cases e
          exact h1.grants _ _ hw
        · exact h2.grants _ _ hw
      · intro d url c h hd
        rcases within_cons h with ⟨_, e⟩ | ⟨i, d', e, _, hw⟩ | hw
        · exact nomatch e
        · cases e
          exact h1.others _ _ _ hw (Or.inl rfl)
        · exact h2.others _ _ _ hw hd
      · intro d m h hd
        rcases within_cons h with ⟨_, e⟩ | ⟨i, d', e, _, hw⟩ | hw
        · exact nomatch e
        · cases e
          exact h1.eths _ _ hw (Or.inl rfl)
        · exact h2.eths _ _ hw hd
      · intro r t h
        rcases ladder_cons h with e | ⟨i, r', e, er, hw⟩ | ⟨r', hw, hpos, er⟩
        · exact Or.inl e
        · cases e
          right
          rcases h1.ladders _ _ hw with e | e <;> omega
        · right
          have er' : r = 1 + r' := er
          rcases h2.ladders _ _ hw with e | e <;> omega
    · intro hs
      have hlen : lvl + 1 < maxNested := by
        rcases hs.ladders _ _ (Ladder.into (before := []) (after := rest) (Ladder.stay (msgs := ms)))
          with e | e
        · rw [List.countP_nil] at e
          omega
        · rw [List.countP_nil] at e
          omega
      refine ⟨⟨hlen, ?_, ?_, ?_, ?_⟩, ?_, ?_, ?_, ?_⟩
      · exact fun d url h => hs.grants _ _ (.wrapped List.mem_cons_self h)
      · exact fun d url c h _ => hs.others _ _ _ (.wrapped List.mem_cons_self h)
          (Or.inr (Nat.succ_pos _))
      · exact fun d m h _ => hs.eths _ _ (.wrapped List.mem_cons_self h) (Or.inr (Nat.succ_pos _))
      · intro r t h
        rcases hs.ladders _ _ (Ladder.into (before := []) (after := rest) h) with e | e
        · rw [List.countP_nil] at e
          omega
        · rw [List.countP_nil] at e
          omega
      · exact fun d url h => hs.grants _ _ (within_tail h)
      · exact fun d url c h hd => hs.others _ _ _ (within_tail h) hd
      · exact fun d m h hd => hs.eths _ _ (within_tail h) hd
      · intro r t h
        by_cases hr : r = 0
        · exact Or.inl hr
        · right
          have := ladder_tail (x := .exec ms) h (Nat.pos_of_ne_zero hr)
          have e1 : (if isExec (.exec ms) then 1 else 0) = 1 := rfl
          rw [e1] at this
          rcases hs.ladders _ _ this with e | e <;> omega
  | .grant url :: rest =>
    have ih := allowed_iff inner lvl rest
    rw [allowed, allowedOne, raised, Bool.and_eq_true, ih]
    have hneg : (!isDisabled url) = true ↔ url ∉ disabled := by
      rw [← isDisabled_iff]
      cases isDisabled url <;> decide
    rw [hneg]
    constructor
    · rintro ⟨hu, h2⟩
      refine ⟨?_, ?_, ?_, ?_⟩
      · intro d u h
        rcases within_cons h with ⟨_, e⟩ | ⟨i, d', e, _, hw⟩ | hw
        · cases e
          exact hu
        · exact nomatch e
        · exact h2.grants _ _ hw
      · intro d u c h hd
        rcases within_cons h with ⟨_, e⟩ | ⟨i, d', e, _, hw⟩ | hw
        · exact nomatch e
        · exact nomatch e
        · exact h2.others _ _ _ hw hd
      · intro d m h hd
        rcases within_cons h with ⟨_, e⟩ | ⟨i, d', e, _, hw⟩ | hw
        · exact nomatch e
        · exact nomatch e
        · exact h2.eths _ _ hw hd
      · intro r t h
        rcases ladder_cons h with e | ⟨i, r', e, er, hw⟩ | ⟨r', hw, hpos, er⟩
        · exact Or.inl e
        · exact nomatch e
        · have er' : r = 0 + r' := er
          rcases h2.ladders _ _ hw with e | e <;> omega
    · intro hs
      refine ⟨hs.grants 0 url (.listed List.mem_cons_self), ?_, ?_, ?_, ?_⟩
      · exact fun d u h => hs.grants _ _ (within_tail h)
      · exact fun d u c h hd => hs.others _ _ _ (within_tail h) hd
      · exact fun d m h hd => hs.eths _ _ (within_tail h) hd
      · intro r t h
        by_cases hr : r = 0
        · exact Or.inl hr
        · right
          have := ladder_tail (x := .grant url) h (Nat.pos_of_ne_zero hr)
          have e1 : (if isExec (.grant url) then 1 else 0) = 0 := rfl
          rw [e1] at this
          rcases hs.ladders _ _ this with e | e <;> omega
  | .eth m :: rest =>
    have ih := allowed_iff inner lvl rest
    rw [allowed, allowedOne, raised, Bool.and_eq_true, ih, eth_disabled, Bool.and_true]
    constructor
    · rintro ⟨hi, h2⟩
      refine ⟨?_, ?_, ?_, ?_⟩
      · intro d u h
        rcases within_cons h with ⟨_, e⟩ | ⟨i, d', e, _, hw⟩ | hw
        · exact nomatch e
        · exact nomatch e
        · exact h2.grants _ _ hw
      · intro d u c h hd
        rcases within_cons h with ⟨_, e⟩ | ⟨i, d', e, _, hw⟩ | hw
        · exact nomatch e
        · exact nomatch e
        · exact h2.others _ _ _ hw hd
      · intro d m' h hd
        rcases within_cons h with ⟨e0, e⟩ | ⟨i, d', e, _, hw⟩ | hw
        · rcases hd with hd | hd
          · rw [hd] at hi
            exact nomatch hi
          · omega
        · exact nomatch e
        · exact h2.eths _ _ hw hd
      · intro r t h
        rcases ladder_cons h with e | ⟨i, r', e, er, hw⟩ | ⟨r', hw, hpos, er⟩
        · exact Or.inl e
        · exact nomatch e
        · have er' : r = 0 + r' := er
          rcases h2.ladders _ _ hw with e | e <;> omega
    · intro hs
      refine ⟨?_, ?_, ?_, ?_, ?_⟩
      · have := hs.eths 0 m (.listed List.mem_cons_self)
        cases inner
        · rfl
        · exact absurd (Or.inl rfl) this
      · exact fun d u h => hs.grants _ _ (within_tail h)
      · exact fun d u c h hd => hs.others _ _ _ (within_tail h) hd
      · exact fun d m h hd => hs.eths _ _ (within_tail h) hd
      · intro r t h
        by_cases hr : r = 0
        · exact Or.inl hr
        · right
          have := ladder_tail (x := .eth m) h (Nat.pos_of_ne_zero hr)
          have e1 : (if isExec (.eth m) then 1 else 0) = 0 := rfl
          rw [e1] at this
          rcases hs.ladders _ _ this with e | e <;> omega
  | .other url c :: rest =>
    have ih := allowed_iff inner lvl rest
    rw [allowed, allowedOne, raised, Bool.and_eq_true, ih]
    have hneg : (!(inner && isDisabled url)) = true ↔ (inner = true → url ∉ disabled) := by
      rw [← isDisabled_iff]
      cases inner <;> cases isDisabled url <;> decide
    rw [hneg]
    constructor
    · rintro ⟨hu, h2⟩
      refine ⟨?_, ?_, ?_, ?_⟩
      · intro d u h
        rcases within_cons h with ⟨_, e⟩ | ⟨i, d', e, _, hw⟩ | hw
        · exact nomatch e
        · exact nomatch e
        · exact h2.grants _ _ hw
      · intro d u c' h hd
        rcases within_cons h with ⟨e0, e⟩ | ⟨i, d', e, _, hw⟩ | hw
        · cases e
          rcases hd with hd | hd
          · exact hu hd
          · omega
        · exact nomatch e
        · exact h2.others _ _ _ hw hd
      · intro d m h hd
        rcases within_cons h with ⟨_, e⟩ | ⟨i, d', e, _, hw⟩ | hw
        · exact nomatch e
        · exact nomatch e
        · exact h2.eths _ _ hw hd
      · intro r t h
        rcases ladder_cons h with e | ⟨i, r', e, er, hw⟩ | ⟨r', hw, hpos, er⟩
        · exact Or.inl e
        · exact nomatch e
        · have er' : r = 0 + r' := er
          rcases h2.ladders _ _ hw with e | e <;> omega
    · intro hs
      refine ⟨fun hi => hs.others 0 url c (.listed List.mem_cons_self) (Or.inl hi), ?_, ?_, ?_, ?_⟩
      · exact fun d u h => hs.grants _ _ (within_tail h)
      · exact fun d u c h hd => hs.others _ _ _ (within_tail h) hd
      · exact fun d m h hd => hs.eths _ _ (within_tail h) hd
      · intro r t h
        by_cases hr : r = 0
        · exact Or.inl hr
        · right
          have := ladder_tail (x := .other url c) h (Nat.pos_of_ne_zero hr)
          have e1 : (if isExec (.other url c) then 1 else 0) = 0 := rfl
          rw [e1] at this
          rcases hs.ladders _ _ this with e | e <;> omega
termination_by sizeOf msgs

/-- A message at depth `d` sits in a list reached by a ladder of cost at least `d`. -/
theorem ladder_of_within {d : Nat} {m : Msg} {msgs : List Msg} (h : Within d m msgs) :
    ∃ r target, Ladder r msgs target ∧ d ≤ r ∧ m ∈ target := by
  induction h with
  | listed hm => exact ⟨0, _, .stay, Nat.le_refl _, hm⟩
  | @wrapped d m inner msgs he _ ih =>
    obtain ⟨r, t, hl, hd, hm⟩ := ih
    obtain ⟨before, after, rfl⟩ := List.append_of_mem he
    exact ⟨_, t, .into hl, by omega, hm⟩

theorem noEth_iff (msgs : List Msg) : noEth msgs = true ↔ ∀ m, Msg.eth m ∉ msgs := by
  induction msgs with
  | nil => exact ⟨fun _ _ h => absurd h List.not_mem_nil, fun _ => rfl⟩
  | cons x rest ih =>
    cases x with
    | eth m =>
      exact ⟨(fun h => nomatch h), fun h => absurd List.mem_cons_self (h m)⟩
    | exec l =>
      show noEth rest = true ↔ _
      rw [ih]
      refine ⟨fun h m hm => ?_, fun h m hm => h m (List.mem_cons_of_mem _ hm)⟩
      rcases List.mem_cons.1 hm with e | e
      · exact nomatch e
      · exact h m e
    | grant l =>
      show noEth rest = true ↔ _
      rw [ih]
      refine ⟨fun h m hm => ?_, fun h m hm => h m (List.mem_cons_of_mem _ hm)⟩
      rcases List.mem_cons.1 hm with e | e
      · exact nomatch e
      · exact h m e
    | other l c =>
      show noEth rest = true ↔ _
      rw [ih]
      refine ⟨fun h m hm => ?_, fun h m hm => h m (List.mem_cons_of_mem _ hm)⟩
      rcases List.mem_cons.1 hm with e | e
      · exact nomatch e
      · exact h m e

/-- What the loop of the mono decorator says about the messages. -/
theorem totals_some {hashOf : EthData → Nat} {msgs : List Msg} {fee gas : Nat}
    (h : totals hashOf msgs = some (fee, gas)) :
    ∃ ms : List EthMsg, msgs = ms.map .eth ∧
      (∀ m ∈ ms, m.size = 0 ∧ m.data.gas ≠ 0 ∧ m.data.gas < 9223372036854775808 ∧
        m.hash = hashOf m.data ∧ m.sender = "") ∧
      fee = (ms.map fun m => m.data.fee).sum ∧
      gas = (ms.map fun m => m.data.gas).sum % 18446744073709551616 := by
  induction msgs generalizing fee gas with
  | nil =>
    cases h
    exact ⟨[], rfl, fun m hm => absurd hm List.not_mem_nil, rfl, rfl⟩
  | cons x rest ih =>
    cases x with
    | eth m =>
      unfold totals at h
      by_cases hb : basic hashOf m = true
      · rw [if_pos hb] at h
        cases ht : totals hashOf rest with
        | none => rw [ht] at h; exact nomatch h
        | some p =>
          obtain ⟨f, g⟩ := p
          rw [ht] at h
          injection h with h
          injection h with h1 h2
          obtain ⟨ms, e, hok, hf, hg⟩ := ih ht
          refine ⟨m :: ms, by rw [List.map_cons, e], ?_, ?_, ?_⟩
          · intro x hx
            rcases List.mem_cons.1 hx with rfl | hx
            · unfold basic at hb
              rw [Bool.and_eq_true, Bool.and_eq_true, Bool.and_eq_true, Bool.and_eq_true,
                decide_eq_true_iff, decide_eq_true_iff, decide_eq_true_iff, decide_eq_true_iff,
                decide_eq_true_iff] at hb
              exact ⟨hb.1.1.1.1, hb.1.1.1.2, hb.1.1.2, hb.1.2, hb.2⟩
            · exact hok x hx
          · rw [List.map_cons, List.sum_cons, ← h1, hf]
          · rw [List.map_cons, List.sum_cons, ← h2, hg, Nat.add_mod_mod]
      · rw [if_neg hb] at h
        exact nomatch h
    | exec l => exact nomatch h
    | grant l => exact nomatch h
    | other l c => exact nomatch h

end Routes
