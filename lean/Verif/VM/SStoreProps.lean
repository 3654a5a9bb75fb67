import Verif.VM.SStore
/-!
# Metering of storage writes (C65)
-/
namespace VM

/-! ### Specification -/

/-- What a slot costs, net, by its value at the start of the transaction and its present one: nothing when unchanged, 19900 when newly set, 2800 when
overwritten, of which the clearing refund is given back when emptied. -/
def slotCost (clearing : Nat) (orig cur : Word) : Int :=
  if cur = orig then 0
  else if orig = 0#256 then 19900
  else if cur = 0#256 then 2800 - clearing
  else 2800

/-- Sum over a list of keys. -/
def sumOver {κ : Type} (f : κ → Int) : List κ → Int
  | [] => 0
  | k :: ks => f k + sumOver f ks

/-- 2100 for a slot that became warm. -/
def coldCost {κ : Type} (s s' : Slots κ) (k : κ) : Int := if s.warm k = false ∧ s'.warm k = true then 2100 else 0

/-- The refund counter holds the clearing refund of every slot that is empty now and was not at the start. -/
def RefundOk {κ : Type} (clearing : Nat) (s : Slots κ) : Prop :=
  ∃ cleared : List κ, cleared.Nodup ∧ (∀ k, k ∈ cleared ↔ s.orig k ≠ 0#256 ∧ s.cur k = 0#256) ∧ clearing * cleared.length ≤ s.refund

/-! ### Proof -/

theorem sstoreGas_net {clearing : Nat} {warm : Bool} {orig cur value : Word} {refund cost refund' : Nat}
    (h : sstoreGas clearing warm orig cur value refund = some (cost, refund')) :
    (cost : Int) - ((refund' : Int) - refund) = 100 + (if warm then 0 else 2100) + slotCost clearing orig value - slotCost clearing orig cur := by
  have hcold : ((if warm = true then 0 else 2100 : Nat) : Int) = (if warm then 0 else 2100) := by cases warm <;> rfl
  unfold sstoreGas at h
  dsimp only at h
  rw [← hcold]
  generalize (if warm = true then 0 else 2100 : Nat) = cold at *
  unfold slotCost
  by_cases h1 : cur = value
  · rw [if_pos h1] at h
    cases h
    subst h1
    omega
  · rw [if_neg h1] at h
    by_cases h2 : orig = cur
    · rw [if_pos h2] at h
      rw [if_neg (c := value = orig) (fun e => h1 (by rw [e, h2])), if_pos h2.symm]
      by_cases h3 : orig = 0#256
      · rw [if_pos h3] at h
        cases h
        rw [if_pos h3]; omega
      · rw [if_neg h3] at h
        rw [if_neg h3]
        by_cases h4 : value = 0#256
        · rw [if_pos h4] at h; rw [if_pos h4]; cases h; omega
        · rw [if_neg h4] at h; rw [if_neg h4]; cases h; omega
    · rw [if_neg h2] at h
      rw [if_neg (c := cur = orig) (fun e => h2 e.symm)]
      by_cases h3 : orig = 0#256
      · rw [if_pos h3] at h
        rw [if_pos h3]
        dsimp only at h
        by_cases h5 : orig = value
        · rw [if_pos h5, if_pos h3] at h
          rw [if_pos h5.symm]
          cases h; simp only [if_pos h3]; omega
        · rw [if_neg h5] at h
          rw [if_neg (fun e => h5 e.symm)]
          cases h; rw [if_pos h3]; omega
      · rw [if_neg h3] at h
        rw [if_neg h3]
        by_cases h4 : cur = 0#256
        · rw [if_pos h4] at h
          rw [if_pos h4]
          split at h
          · cases h
          · rename_i r1 hr
            split at hr
            · cases hr
            · cases hr
              by_cases h5 : orig = value
              · rw [if_pos h5, if_neg h3] at h
                rw [if_pos h5.symm]
                cases h; simp only [if_neg h3, if_pos h4]; omega
              · rw [if_neg h5] at h
                rw [if_neg (fun e => h5 e.symm), if_neg h3, if_neg (fun e => h1 (h4.trans e.symm))]
                cases h; omega
        · rw [if_neg h4] at h
          rw [if_neg h4]
          by_cases h6 : value = 0#256
          · rw [if_pos h6] at h
            dsimp only at h
            have h5 : ¬ orig = value := fun e => h3 (e.trans h6)
            rw [if_neg h5] at h
            rw [if_neg (fun e => h5 e.symm), if_neg h3, if_pos h6]
            cases h; omega
          · rw [if_neg h6] at h
            dsimp only at h
            by_cases h5 : orig = value
            · rw [if_pos h5, if_neg h3] at h
              rw [if_pos h5.symm]
              cases h; simp only [if_neg h3, if_neg h4]; omega
            · rw [if_neg h5] at h
              rw [if_neg (fun e => h5 e.symm), if_neg h3, if_neg h6]
              cases h; omega

theorem sumOver_congr {κ : Type} {f g : κ → Int} : ∀ {ks : List κ}, (∀ k ∈ ks, f k = g k) → sumOver f ks = sumOver g ks := by
  intro ks
  induction ks with
  | nil => intro _; rfl
  | cons k ks ih =>
    intro h
    unfold sumOver
    rw [h k List.mem_cons_self, ih (fun j hj => h j (List.mem_cons_of_mem _ hj))]

/-- Two functions that differ at one key of a list without repetitions. -/
theorem sumOver_point {κ : Type} {f g : κ → Int} {k : κ} : ∀ {ks : List κ}, ks.Nodup → k ∈ ks → (∀ j, j ≠ k → f j = g j) →
    sumOver f ks - sumOver g ks = f k - g k := by
  intro ks
  induction ks with
  | nil => intro _ h _; cases h
  | cons x xs ih =>
    intro hn hk h
    obtain ⟨hx, hxs⟩ := List.nodup_cons.1 hn
    unfold sumOver
    by_cases e : x = k
    · subst e
      have := sumOver_congr (f := f) (g := g) (ks := xs) (fun j hj => h j (fun e => hx (e ▸ hj)))
      omega
    · have hk' : k ∈ xs := by
        rcases List.mem_cons.1 hk with e' | h'
        · exact absurd e'.symm e
        · exact h'
      have := ih hxs hk' h
      have := h x e
      omega

theorem setAt_same {κ α : Type} [DecidableEq κ] (f : κ → α) (k : κ) (v : α) : setAt f k v k = v := if_pos rfl
theorem setAt_ne {κ α : Type} [DecidableEq κ] (f : κ → α) {k j : κ} (v : α) (h : j ≠ k) : setAt f k v j = f j := if_neg h

theorem sstore_orig {κ : Type} [DecidableEq κ] {clearing : Nat} {s s' : Slots κ} {k : κ} {v : Word} {cost : Nat}
    (h : sstore clearing s k v = some (cost, s')) :
    s'.orig = s.orig ∧ s'.cur = setAt s.cur k v ∧ s'.warm = setAt s.warm k true ∧
      sstoreGas clearing (s.warm k) (s.orig k) (s.cur k) v s.refund = some (cost, s'.refund) := by
  unfold sstore at h
  split at h
  · cases h
  · rename_i c r e
    cases h
    exact ⟨rfl, rfl, rfl, e⟩

/-- Storage costs do not depend on the path: whatever is written in between, a run of writes costs, net of refunds, 100 for each, 2100 for each slot
touched for the first time, and the difference that the final values make. -/
theorem writes_net_cost {κ : Type} [DecidableEq κ] {clearing : Nat} : ∀ (ws : List (κ × Word)) {s s' : Slots κ} {cost : Nat} {keys : List κ},
    keys.Nodup → (∀ w ∈ ws, w.1 ∈ keys) → sstores clearing s ws = some (cost, s') →
    (cost : Int) - ((s'.refund : Int) - s.refund) = 100 * ws.length + sumOver (coldCost s s') keys
      + (sumOver (fun k => slotCost clearing (s.orig k) (s'.cur k)) keys - sumOver (fun k => slotCost clearing (s.orig k) (s.cur k)) keys) ∧
    s'.orig = s.orig ∧ (∀ k, s.warm k = true → s'.warm k = true) := by
  intro ws
  induction ws with
  | nil =>
    intro s s' cost keys _ _ h
    cases h
    refine ⟨?_, rfl, fun _ h => h⟩
    have : sumOver (coldCost s s) keys = 0 := by
      rw [sumOver_congr (g := fun _ => 0)]
      · generalize keys = ks
        induction ks with
        | nil => rfl
        | cons _ ks ih => unfold sumOver; rw [ih]; rfl
      · intro k _
        unfold coldCost
        rw [if_neg]
        rintro ⟨h1, h2⟩
        rw [h1] at h2; cases h2
    rw [this]
    simp only [List.length_nil]
    omega
  | cons w ws ih =>
    intro s s' cost keys hn hk h
    obtain ⟨k, v⟩ := w
    unfold sstores at h
    cases h1 : sstore clearing s k v with
    | none => rw [h1] at h; cases h
    | some p =>
      obtain ⟨c, s1⟩ := p
      rw [h1] at h
      dsimp only at h
      cases h2 : sstores clearing s1 ws with
      | none => rw [h2] at h; cases h
      | some q =>
        obtain ⟨c2, s2⟩ := q
        rw [h2] at h
        cases h
        obtain ⟨e1, e2, e3, e4⟩ := sstore_orig h1
        obtain ⟨i1, i2, i3⟩ := ih hn (fun w hw => hk w (List.mem_cons_of_mem _ hw)) h2
        have hkk : k ∈ keys := hk (k, v) List.mem_cons_self
        have g := sstoreGas_net e4
        refine ⟨?_, i2.trans e1, fun j hj => i3 j (by rw [e3]; by_cases e : j = k; · rw [e, setAt_same]
                                                      · rw [setAt_ne _ _ e]; exact hj)⟩
        have hwarm1 : s1.warm k = true := by rw [e3, setAt_same]
        have p1 := sumOver_point (f := coldCost s s') (g := coldCost s1 s') (k := k) hn hkk (by
          intro j hj
          unfold coldCost
          rw [e3, setAt_ne _ _ hj])
        have p2 := sumOver_point (f := fun j => slotCost clearing (s1.orig j) (s1.cur j)) (g := fun j => slotCost clearing (s.orig j) (s.cur j))
          (k := k) hn hkk (by
            intro j hj
            rw [e1, e2, setAt_ne _ _ hj])
        rw [e1, e2, setAt_same] at p2
        have c1 : coldCost s s' k = if s.warm k then 0 else 2100 := by
          unfold coldCost
          cases s.warm k
          · rw [if_pos ⟨rfl, i3 k hwarm1⟩]; rfl
          · rw [if_neg (fun h => nomatch h.1)]; rfl
        have c2 : coldCost s1 s' k = 0 := by
          unfold coldCost
          rw [hwarm1, if_neg (fun h => nomatch h.1)]
        rw [c1, c2] at p1
        rw [e1] at i1
        rw [e2] at i1
        rw [List.length_cons]
        generalize sumOver (fun k => slotCost clearing (s.orig k) (s'.cur k)) keys = A at *
        generalize sumOver (fun j => slotCost clearing (s.orig j) (setAt s.cur k v j)) keys = B at *
        generalize sumOver (fun j => slotCost clearing (s.orig j) (s.cur j)) keys = C at *
        push_cast
        omega

/-- In particular, writing a slot any number of times and back to what it was costs 100 for each write (and 2100 once if it was cold): nothing more can be
charged, and nothing can be gained. -/
theorem round_trip_cost {κ : Type} [DecidableEq κ] {clearing : Nat} {k : κ} {vs : List Word} {s s' : Slots κ} {cost : Nat}
    (h : sstores clearing s (vs.map (fun v => (k, v))) = some (cost, s')) (h0 : s.cur k = s.orig k) (h1 : s'.cur k = s.orig k) :
    (cost : Int) - ((s'.refund : Int) - s.refund) = 100 * vs.length + coldCost s s' k := by
  have := (writes_net_cost (keys := [k]) _ (by simp) (by
    intro w hw
    obtain ⟨v, _, rfl⟩ := List.mem_map.1 hw
    exact List.mem_singleton.2 rfl) h).1
  simp only [sumOver, List.length_map, h0, h1] at this
  omega

theorem sstore_refund {κ : Type} [DecidableEq κ] {clearing : Nat} {s : Slots κ} {k : κ} {v : Word} (h : RefundOk clearing s) :
    ∃ cost s', sstore clearing s k v = some (cost, s') ∧ RefundOk clearing s' := by
  obtain ⟨L, hn, hL, hr⟩ := h
  have key : ∃ cost r, sstoreGas clearing (s.warm k) (s.orig k) (s.cur k) v s.refund = some (cost, r) ∧
      (((s.orig k ≠ 0#256 ∧ s.cur k = 0#256) ↔ (s.orig k ≠ 0#256 ∧ v = 0#256)) ∧ s.refund ≤ r ∨
       (s.orig k ≠ 0#256 ∧ s.cur k = 0#256) ∧ ¬ (s.orig k ≠ 0#256 ∧ v = 0#256) ∧ s.refund ≤ r + clearing ∨
       ¬ (s.orig k ≠ 0#256 ∧ s.cur k = 0#256) ∧ (s.orig k ≠ 0#256 ∧ v = 0#256) ∧ s.refund + clearing ≤ r) := by
    have hle : s.orig k ≠ 0#256 ∧ s.cur k = 0#256 → clearing ≤ s.refund := by
      intro hk
      have hm := (hL k).2 hk
      have : 1 ≤ L.length := List.length_pos_of_mem hm
      have : clearing * 1 ≤ clearing * L.length := Nat.mul_le_mul_left _ this
      omega
    generalize s.refund = r at *
    generalize s.orig k = o at *
    generalize s.cur k = c at *
    unfold sstoreGas
    dsimp only
    generalize (if s.warm k = true then 0 else 2100 : Nat) = cold
    by_cases h1 : c = v
    · rw [if_pos h1]
      exact ⟨_, _, rfl, .inl ⟨by rw [h1], Nat.le_refl _⟩⟩
    · rw [if_neg h1]
      by_cases h2 : o = c
      · rw [if_pos h2]
        by_cases h3 : o = 0#256
        · rw [if_pos h3]
          exact ⟨_, _, rfl, .inl ⟨⟨fun h => absurd h3 h.1, fun h => absurd h3 h.1⟩, Nat.le_refl _⟩⟩
        · rw [if_neg h3]
          refine ⟨_, _, rfl, ?_⟩
          by_cases h4 : v = 0#256
          · rw [if_pos h4]
            exact .inr (.inr ⟨fun h => h3 (h2.trans h.2), ⟨h3, h4⟩, Nat.le_refl _⟩)
          · rw [if_neg h4]
            exact .inl ⟨⟨fun h => absurd (h2.trans h.2) h3, fun h => absurd h.2 h4⟩, Nat.le_refl _⟩
      · rw [if_neg h2]
        by_cases h3 : o = 0#256
        · rw [if_pos h3]
          dsimp only
          split
          · exact ⟨_, _, rfl, .inl ⟨⟨fun h => absurd h3 h.1, fun h => absurd h3 h.1⟩, by omega⟩⟩
          · exact ⟨_, _, rfl, .inl ⟨⟨fun h => absurd h3 h.1, fun h => absurd h3 h.1⟩, by omega⟩⟩
        · rw [if_neg h3]
          by_cases h4 : c = 0#256
          · have hc := hle ⟨h3, h4⟩
            have h6 : ¬ v = 0#256 := fun e => h1 (h4.trans e.symm)
            rw [if_pos h4, if_neg (by omega)]
            dsimp only
            split
            · exact ⟨_, _, rfl, .inr (.inl ⟨⟨h3, h4⟩, fun h => h6 h.2, by omega⟩)⟩
            · exact ⟨_, _, rfl, .inr (.inl ⟨⟨h3, h4⟩, fun h => h6 h.2, by omega⟩)⟩
          · rw [if_neg h4]
            by_cases h6 : v = 0#256
            · rw [if_pos h6]
              dsimp only
              rw [if_neg (fun e => h3 (e.trans h6))]
              exact ⟨_, _, rfl, .inr (.inr ⟨fun h => h4 h.2, ⟨h3, h6⟩, Nat.le_refl _⟩)⟩
            · rw [if_neg h6]
              dsimp only
              split
              · exact ⟨_, _, rfl, .inl ⟨⟨fun h => absurd h.2 h4, fun h => absurd h.2 h6⟩, by omega⟩⟩
              · exact ⟨_, _, rfl, .inl ⟨⟨fun h => absurd h.2 h4, fun h => absurd h.2 h6⟩, by omega⟩⟩
  obtain ⟨cost, r, e, hcase⟩ := key
  refine ⟨cost, { s with cur := setAt s.cur k v, warm := setAt s.warm k true, refund := r }, ?_, ?_⟩
  · unfold sstore
    rw [e]
  · have hother : ∀ j, j ≠ k → (j ∈ L ↔ s.orig j ≠ 0#256 ∧ setAt s.cur k v j = 0#256) := by
      intro j hj
      rw [setAt_ne _ _ hj]
      exact hL j
    rcases hcase with ⟨hiff, hle⟩ | ⟨hin, hout, hle⟩ | ⟨hout, hin, hle⟩
    · refine ⟨L, hn, ?_, Nat.le_trans hr hle⟩
      intro j
      dsimp only
      by_cases ej : j = k
      · subst ej
        rw [setAt_same]
        exact (hL j).trans hiff
      · exact hother j ej
    · have hkL := (hL k).2 hin
      refine ⟨L.erase k, hn.erase k, ?_, ?_⟩
      · intro j
        dsimp only
        rw [hn.mem_erase_iff]
        by_cases ej : j = k
        · subst ej
          rw [setAt_same]
          exact ⟨fun h => absurd rfl h.1, fun h => absurd h hout⟩
        · rw [← hother j ej]
          exact ⟨fun h => h.2, fun h => ⟨ej, h⟩⟩
      · dsimp only
        rw [List.length_erase_of_mem hkL]
        have : 1 ≤ L.length := List.length_pos_of_mem hkL
        have : clearing * (L.length - 1) + clearing = clearing * L.length := by
          rw [← Nat.mul_succ]; congr 1; omega
        omega
    · have hkL : k ∉ L := fun h => hout ((hL k).1 h)
      refine ⟨k :: L, List.nodup_cons.2 ⟨hkL, hn⟩, ?_, ?_⟩
      · intro j
        dsimp only
        rw [List.mem_cons]
        by_cases ej : j = k
        · subst ej
          rw [setAt_same]
          exact ⟨fun _ => hin, fun _ => .inl rfl⟩
        · rw [← hother j ej]
          exact ⟨fun h => h.resolve_left ej, .inr⟩
      · dsimp only
        rw [List.length_cons, Nat.mul_succ]
        omega

/-- The refund counter never goes below zero: from the start of a transaction, no sequence of writes, reads, snapshots and reverts panics. -/
theorem refund_never_negative {κ : Type} [DecidableEq κ] (clearing : Nat) (orig : κ → Word) (warm : κ → Bool) (acts : List (SAct κ)) :
    ∃ st, sacts clearing ({ orig := orig, cur := orig, warm := warm, refund := 0 }, []) acts = some st := by
  suffices h : ∀ (acts : List (SAct κ)) (st : Slots κ × List (Slots κ)), RefundOk clearing st.1 → (∀ s ∈ st.2, RefundOk clearing s) →
      ∃ st', sacts clearing st acts = some st' by
    refine h acts _ ⟨[], List.nodup_nil, ?_, by simp⟩ (by intro s hs; cases hs)
    intro k
    dsimp only
    exact ⟨fun h => (nomatch h), fun h => absurd h.2 h.1⟩
  intro acts
  induction acts with
  | nil => exact fun st _ _ => ⟨st, rfl⟩
  | cons a as ih =>
    intro st h1 h2
    cases a with
    | write k v =>
      obtain ⟨cost, s', e, h⟩ := sstore_refund (k := k) (v := v) h1
      have e' : sact clearing st (.write k v) = some (s', st.2) := by
        show (match sstore clearing st.1 k v with | none => none | some (_, s) => some (s, st.2)) = _
        rw [e]
      unfold sacts
      rw [e']
      exact ih (s', st.2) h h2
    | read k => exact ih _ h1 h2
    | snapshot => exact ih (st.1, st.1 :: st.2) h1 (by
        intro s hs
        rcases List.mem_cons.1 hs with rfl | hs
        · exact h1
        · exact h2 s hs)
    | keep => exact ih (st.1, st.2.tail) h1 (fun s hs => h2 s (List.mem_of_mem_tail hs))
    | revert =>
      obtain ⟨s, saved⟩ := st
      cases saved with
      | nil => exact ih (s, []) h1 h2
      | cons p rest =>
        exact ih (p, rest) (h2 p List.mem_cons_self) (fun s hs => h2 s (List.mem_cons_of_mem _ hs))

/-- A slot cleared and set again, and a new one set and cleared, in London rules. -/
example : (sstores 4800 { orig := fun (k : Nat) => if k = 0 then 7#256 else 0#256, cur := fun k => if k = 0 then 7#256 else 0#256, warm := fun _ => false, refund := 0 }
    [(0, 0#256), (1, 5#256), (0, 9#256), (1, 0#256), (0, 7#256)]).map (fun p => (p.1, p.2.refund)) = some (2100 + 2900 + 2100 + 20000 + 100 + 100 + 100, 19900 + 2800) := by
  decide +kernel

end VM
