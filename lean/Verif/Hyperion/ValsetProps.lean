import Verif.Hyperion.ValsetLemmas
/-!
# Properties of the validator sets published to the counterparty chain (C30, C52)
-/
namespace Hyperion.Valset
open StableSort

/-! ## Specification -/

/-- The voting power of the bonded validators that take part in the bridge. -/
def realTotal (ms : List Member) : Nat := (ms.map (·.power)).sum

/-- The power published for a validator: its share of `2^32 - 1`, rounded down. -/
def share (t p : Nat) : Nat := p * (2 ^ 32 - 1) / t

/-- The distance of two published sets: the sum over all addresses of `L` of the change of power. -/
def distance (L : List Str) (b c : List Member) : Nat :=
  (L.map (fun a => ((powerAt b a : Int) - powerAt c a).natAbs)).sum

/-- `L` names every address of the two sets once. -/
def Covers (L : List Str) (b c : List Member) : Prop :=
  L.Nodup ∧ (∀ x ∈ b, x.addr ∈ L) ∧ ∀ x ∈ c, x.addr ∈ L

/-! ## C30: relative powers -/

/-- The published set consists of the validators with a registered address, each with its share of `2^32 - 1`. -/
theorem published_members {vals : List Val} (h0 : 0 < realTotal (keyed vals)) (h1 : realTotal (keyed vals) < 2 ^ 64) :
    ∃ ms, current vals = some ms ∧
      ms.Perm ((keyed vals).map (fun m => ⟨share (realTotal (keyed vals)) m.power, m.addr⟩)) ∧
      ms.Pairwise (fun a b => b.power ≤ a.power) := by
  have ht : total (keyed vals) = realTotal (keyed vals) := by
    rw [total_eq]; exact Nat.mod_eq_of_lt h1
  have hn := normalise_eq h0 (ms := keyed vals) (fun m hm => power_le_sum hm)
  refine ⟨sortBy memberLe ((keyed vals).map (fun m => ⟨m.power * maxU32 / realTotal (keyed vals), m.addr⟩)), ?_, ?_, ?_⟩
  · unfold current
    rw [ht, hn]
    rfl
  · exact sortBy_perm _ _
  · refine (sortBy_pairwise memberLe_trans memberLe_total _).imp ?_
    intro a b hab
    unfold memberLe at hab
    split at hab
    · omega
    · simp only [decide_eq_true_eq] at hab; omega

example : current [⟨30, some [1]⟩, ⟨50, none⟩, ⟨10, some [2]⟩, ⟨10, some [0]⟩] =
    some [⟨2576980377, [1]⟩, ⟨858993459, [0]⟩, ⟨858993459, [2]⟩] := by decide +kernel

/-- The published powers sum to at most `2^32 - 1` and lose less than one unit per member. -/
theorem published_sum {vals : List Val} {ms : List Member} (h0 : 0 < realTotal (keyed vals))
    (h1 : realTotal (keyed vals) < 2 ^ 64) (h : current vals = some ms) :
    (ms.map (·.power)).sum ≤ 2 ^ 32 - 1 ∧ 2 ^ 32 - 1 < (ms.map (·.power)).sum + ms.length := by
  obtain ⟨ms', e, hp, _⟩ := published_members h0 h1
  rw [h] at e
  cases e
  have hs := (hp.map (·.power)).sum_nat
  have hl : ms.length = (keyed vals).length := by rw [hp.length_eq, List.length_map]
  have hm : ((keyed vals).map (fun m => (⟨share (realTotal (keyed vals)) m.power, m.addr⟩ : Member))).map (·.power) =
      ((keyed vals).map (·.power)).map (fun p => p * maxU32 / realTotal (keyed vals)) := by
    rw [List.map_map, List.map_map]; rfl
  rw [hm] at hs
  have a1 := sum_div_le (realTotal (keyed vals)) maxU32 ((keyed vals).map (·.power))
  have a2 := lt_sum_div h0 maxU32 (l := (keyed vals).map (·.power))
  rw [← hs] at a1 a2
  rw [List.length_map, ← hl] at a2
  have hk : 0 < ms.length := by
    rw [hl]
    cases hk : keyed vals with
    | nil => rw [hk] at h0; exact absurd h0 (by decide)
    | cons => simp
  change realTotal (keyed vals) * _ ≤ realTotal (keyed vals) * maxU32 at a1
  change realTotal (keyed vals) * maxU32 + _ ≤ _ at a2
  constructor
  · exact Nat.le_of_mul_le_mul_left a1 h0
  · have : realTotal (keyed vals) * maxU32 < realTotal (keyed vals) * ((ms.map (·.power)).sum + ms.length) := by omega
    exact Nat.lt_of_mul_lt_mul_left this

example : 0 < realTotal (keyed [⟨1, some [1]⟩, ⟨1, some [2]⟩, ⟨1, some [3]⟩]) ∧
    ((current [⟨1, some [1]⟩, ⟨1, some [2]⟩, ⟨2, some [3]⟩]).map (fun ms => (ms.map (·.power)).sum)) = some 4294967293 := by
  decide +kernel

/-- A validator with at least the power of another one is published with at least its power. -/
theorem published_order {t p q : Nat} (h : p ≤ q) : share t p ≤ share t q :=
  Nat.div_le_div_right (Nat.mul_le_mul_right _ h)

/-- Signers that hold more than two thirds of the range of published powers, which is what the contract on the other chain
asks for, hold more than two thirds of the real power on this chain. -/
theorem published_two_thirds {vals : List Val} {S : List Member}
    (h : 3 * (S.map (fun m => share (realTotal (keyed vals)) m.power)).sum > 2 * (2 ^ 32 - 1)) :
    3 * realTotal S > 2 * realTotal (keyed vals) := by
  have h0 : realTotal (keyed vals) = 0 → (S.map (fun m => share (realTotal (keyed vals)) m.power)).sum = 0 := by
    intro e
    rw [e]
    clear h
    induction S with
    | nil => rfl
    | cons m S ih => rw [List.map_cons, List.sum_cons, ih]; exact Nat.div_zero _
  have a := sum_div_le (realTotal (keyed vals)) maxU32 (S.map (·.power))
  rw [List.map_map] at a
  change realTotal (keyed vals) * (S.map (fun m => share (realTotal (keyed vals)) m.power)).sum ≤ realTotal S * maxU32 at a
  generalize (S.map (fun m => share (realTotal (keyed vals)) m.power)).sum = x at *
  generalize realTotal (keyed vals) = t at *
  generalize realTotal S = r at *
  have hk : maxU32 = 4294967295 := rfl
  rw [hk] at a
  apply Decidable.byContradiction
  intro hc
  have hr : 3 * r ≤ 2 * t := by omega
  have hx : 2 * 4294967295 + 1 ≤ 3 * x := by omega
  have h1 : t * (2 * 4294967295 + 1) ≤ t * (3 * x) := Nat.mul_le_mul_left t hx
  have h2 : t * (3 * x) = 3 * (t * x) := by rw [Nat.mul_left_comm]
  rw [Nat.mul_add, Nat.mul_one] at h1
  have ht : t = 0 := by omega
  have := h0 ht
  omega

example : 3 * (([⟨3, [1]⟩] : List Member).map (fun m => share (realTotal (keyed [⟨3, some [1]⟩, ⟨1, some [2]⟩])) m.power)).sum >
    2 * (2 ^ 32 - 1) := by decide +kernel

/-- Signers never lose more than one unit each: with real power `r` of `t`, the published power is more than
`r * (2^32 - 1) / t` minus the number of signers. -/
theorem published_lower {t : Nat} (ht : 0 < t) (S : List Member) :
    realTotal S * (2 ^ 32 - 1) + S.length ≤ t * ((S.map (fun m => share t m.power)).sum + S.length) := by
  have a := lt_sum_div ht maxU32 (l := S.map (·.power))
  rw [List.length_map, List.map_map] at a
  exact a

/-- The code publishes members with power 0 when their share is too small, although a set with such a member is rejected by
the code's own `ValidateBasic` (types.go 40-51). -/
theorem zero_power_published :
    current [⟨2 ^ 40, some [1]⟩, ⟨1, some [2]⟩] = some [⟨4294967294, [1]⟩, ⟨0, [2]⟩] := by decide +kernel

/-- If all validators with a registered address have no power, computing the set panics. -/
theorem zero_total_panics {vals : List Val} (hk : keyed vals ≠ []) (h : realTotal (keyed vals) = 0) :
    current vals = none := by
  unfold current
  rw [total_eq]
  change (normalise (realTotal (keyed vals) % 2 ^ 64) (keyed vals)).map _ = none
  rw [h, Nat.zero_mod, normalise_zero hk]
  rfl

example : current [⟨0, some [1]⟩, ⟨7, none⟩] = none := by decide +kernel

/-! ## C52: requested sets follow the current set -/

/-- The change measured at the end of a block is the sum over all addresses of the change of power. -/
theorem powerDiff_spec {b c : List Member} {L : List Str} (hb : (b.map (·.addr)).Nodup) (hL : Covers L b c) :
    powerDiff b c = distance L b c := powerDiff_eq hb hL.1 hL.2.1 hL.2.2

example : Covers [[1], [2], [3]] [⟨10, [1]⟩, ⟨5, [2]⟩] [⟨7, [3]⟩, ⟨8, [1]⟩] ∧
    powerDiff [⟨10, [1]⟩, ⟨5, [2]⟩] [⟨7, [3]⟩, ⟨8, [1]⟩] = 14 := by
  refine ⟨⟨by decide, by decide, by decide⟩, by decide +kernel⟩

/-- A set does not differ from itself. -/
theorem powerDiff_self {b : List Member} (hb : (b.map (·.addr)).Nodup) : powerDiff b b = 0 := by
  have hm : ∀ x ∈ b, x.addr ∈ b.map (·.addr) := fun x hx => List.mem_map_of_mem (f := (·.addr)) hx
  rw [powerDiff_spec hb ⟨hb, hm, hm⟩]
  unfold distance
  generalize b.map (·.addr) = L
  induction L with
  | nil => rfl
  | cons a L ih => rw [List.map_cons, List.sum_cons, ih]; omega

/-- The change does not depend on the direction. -/
theorem powerDiff_comm {b c : List Member} (hb : (b.map (·.addr)).Nodup) (hc : (c.map (·.addr)).Nodup)
    {L : List Str} (hL : Covers L b c) : powerDiff b c = powerDiff c b := by
  rw [powerDiff_spec hb hL, powerDiff_spec hc ⟨hL.1, hL.2.2, hL.2.1⟩]
  unfold distance
  congr 1
  apply List.map_congr_left
  intro a _
  omega

/-- The histories in which the counterparty chain only adopts sets that are stored here when it reports them, and
administrators never lower the nonce offset. -/
def Tame : List Op → Prop
  | [] => True
  | op :: ops => Tame ops ∧ ∀ s, run ops = some s →
    match op with
    | .observe n => (KV.get s.store n).isSome
    | .setOffset n => s.offset ≤ n
    | .block _ _ _ => True

theorem run_cons {op : Op} {ops : List Op} {s : State} (h : run (op :: ops) = some s) :
    ∃ t, run ops = some t ∧ step t op = some s := by
  unfold run at h
  cases hr : run ops with
  | none => rw [hr] at h; cases h
  | some t => rw [hr] at h; exact ⟨t, rfl, h⟩

/-- What holds after the histories above: nonces are bounded by the next one, the latest one is the greatest and present,
and the observed one is not greater. -/
structure Good (s : State) : Prop where
  bound : ∀ n v, KV.get s.store n = some v → n ≤ s.latest
  latest : s.latest ≤ s.height + s.offset
  present : s.store = [] ∨ (latestSet s).isSome
  observed : ∀ o, s.observed = some o → o ≤ s.latest

theorem get_nil_of {s : State} (h : s.store = []) (n : Nat) : KV.get s.store n = none := by rw [h]; rfl

theorem request_good {s : State} (i : Inv s) (g : Good s) (hlt : s.latest < s.height + s.offset ∨ s.store = [])
    (ms : List Member) : Good (request s ms) := by
  unfold request
  split
  · exact g
  · constructor
    · intro n v hg
      dsimp only at *
      rw [KV.get_set] at hg
      split at hg
      · omega
      · have := g.bound n v hg
        have := g.latest
        omega
    · exact Nat.le_refl _
    · right
      unfold latestSet
      dsimp only
      rw [KV.get_set, if_pos rfl]
      rfl
    · intro o ho
      have h1 : o ≤ s.latest := g.observed o ho
      have h2 : s.latest ≤ s.height + s.offset := g.latest
      exact Nat.le_trans h1 h2

theorem prunes_good {s : State} (ws : List Nat) (i : Inv s) (g : Good s) : Good (ws.foldl prune s) := by
  obtain ⟨a1, a2, a3, a4, a5⟩ := prunes_frame ws s
  constructor
  · intro n v h
    rw [a1]
    rcases prunes_get ws s n i.dist with e | ⟨e, _⟩
    · rw [e] at h; exact g.bound n v h
    · rw [e] at h; cases h
  · rw [a1, a3, a4]; exact g.latest
  · rcases g.present with h | h
    · left; rw [h] at a5; exact List.sublist_nil.1 a5
    · right
      unfold latestSet at *
      rw [a1]
      rcases prunes_get ws s s.latest i.dist with e | ⟨_, v, o, w, h1, h2, _, h4, _⟩
      · rw [e]; exact h
      · have h5 := i.key _ (KV.mem_of_get h1)
        have h6 := g.observed o h2
        dsimp only at h5
        omega
  · rw [a1, a2]; exact g.observed

theorem bump_good {s : State} (g : Good s) : Good { s with height := s.height + 1 } :=
  ⟨g.bound, Nat.le_trans g.latest (by dsimp only; omega), g.present, g.observed⟩

theorem tame_good {ops : List Op} {s : State} (ht : Tame ops) (h : run ops = some s) : Good s := by
  induction ops generalizing s with
  | nil =>
    cases h
    exact ⟨fun n v hg => (by cases hg), Nat.le_refl _, .inl rfl, fun o ho => (by cases ho)⟩
  | cons op ops ih =>
    obtain ⟨t, ht1, hs⟩ := run_cons h
    have g := ih ht.1 ht1
    have i := run_inv ht1
    have hx := ht.2 t ht1
    cases op with
    | observe n =>
      cases hs
      refine ⟨g.bound, g.latest, g.present, ?_⟩
      intro o ho
      cases ho
      dsimp only at hx
      cases hg : KV.get t.store n with
      | none => rw [hg] at hx; cases hx
      | some v => exact g.bound n v hg
    | setOffset n =>
      cases hs
      refine ⟨g.bound, ?_, g.present, g.observed⟩
      have := g.latest
      dsimp only at *
      omega
    | block vals u ws =>
      obtain ⟨ms, _, rfl⟩ := block_eq hs
      have j : Inv (if wants { t with height := t.height + 1 } u ms then request { t with height := t.height + 1 } ms
          else { t with height := t.height + 1 }) := by
        split
        · exact request_inv (bump_inv i) ms
        · exact bump_inv i
      refine prunes_good ws j ?_
      split
      · refine request_good (bump_inv i) (bump_good g) (.inl ?_) ms
        have := g.latest
        dsimp only
        omega
      · exact bump_good g

/-- At the end of every block with validators that have registered addresses, there is a requested set, the latest one, and
the power of its members differs from the current powers by at most five percent of `2^32 - 1`, summed over all
addresses.  If a validator started to unbond in this block, the latest set is exactly the current one. -/
theorem latest_follows_current {ops : List Op} {vals : List Val} {u : Nat} {ws : List Nat} {s : State} {ms : List Member}
    (ht : Tame (.block vals u ws :: ops)) (h : run (.block vals u ws :: ops) = some s) (hc : current vals = some ms)
    (hk : ms ≠ []) (hd : (ms.map (·.addr)).Nodup) :
    ∃ v, latestSet s = some v ∧ (∀ L, Covers L ms v.members → 20 * distance L ms v.members ≤ 2 ^ 32 - 1) ∧
      (u = s.height → v.members = ms) := by
  have g := tame_good ht h
  obtain ⟨t, ht1, hs⟩ := run_cons h
  have i := run_inv ht1
  have gt := tame_good ht.1 ht1
  obtain ⟨ms', hc', hs'⟩ := block_eq hs
  rw [hc] at hc'
  cases hc'
  have hu : ∀ x : List Member, request { t with height := t.height + 1 } ms = { t with
      store := KV.set t.store (t.height + 1 + t.offset) ⟨t.height + 1 + t.offset, t.height + 1, ms⟩
      latest := t.height + 1 + t.offset
      height := t.height + 1 } := by
    intro _
    unfold request
    rw [if_neg]
    simpa using hk
  have hreq := hu ms
  by_cases hw : wants { t with height := t.height + 1 } u ms = true
  · rw [if_pos hw, hreq] at hs'
    obtain ⟨a1, a2, a3, a4, a5⟩ := prunes_frame ws { t with
      store := KV.set t.store (t.height + 1 + t.offset) ⟨t.height + 1 + t.offset, t.height + 1, ms⟩
      latest := t.height + 1 + t.offset
      height := t.height + 1 }
    rw [← hs'] at a1 a2 a3 a4 a5
    have hne : (latestSet s).isSome := by
      rcases g.present with h | h
      · exfalso
        have := prunes_get ws { t with
          store := KV.set t.store (t.height + 1 + t.offset) ⟨t.height + 1 + t.offset, t.height + 1, ms⟩
          latest := t.height + 1 + t.offset
          height := t.height + 1 } (t.height + 1 + t.offset) (KV.distinct_set i.dist _ _)
        rw [← hs'] at this
        rw [get_nil_of h] at this
        dsimp only at this
        rw [KV.get_set, if_pos rfl] at this
        rcases this with h | ⟨_, v, o, w, h1, _, _, _, h5⟩
        · cases h
        · cases h1; dsimp only at h5; omega
      · exact h
    cases hl : latestSet s with
    | none => rw [hl] at hne; cases hne
    | some v =>
      have hv : v = ⟨t.height + 1 + t.offset, t.height + 1, ms⟩ := by
        have hm := KV.mem_of_get hl
        rw [a1] at hm
        have := a5.mem hm
        dsimp only at this
        rcases KV.mem_set.1 this with e | ⟨_, e⟩
        · exact (Prod.mk.inj e).2
        · exact absurd rfl e
      refine ⟨v, rfl, ?_, fun _ => by rw [hv]⟩
      intro L hL
      rw [hv] at hL ⊢
      rw [← powerDiff_spec hd hL, powerDiff_self hd]
      omega
  · rw [if_neg hw] at hs'
    unfold wants at hw
    cases hl : latestSet { t with height := t.height + 1 } with
    | none => rw [hl] at hw; simp at hw
    | some l =>
      rw [hl] at hw
      simp only [Bool.or_eq_true, not_or, Bool.not_eq_true, beq_eq_false_iff_ne, moved, decide_eq_false_iff_not] at hw
      obtain ⟨a1, a2, a3, a4, a5⟩ := prunes_frame ws { t with height := t.height + 1 }
      rw [← hs'] at a1 a2 a3 a4 a5
      have hne : KV.get s.store t.latest = some l := by
        have := prunes_get ws { t with height := t.height + 1 } t.latest i.dist
        rw [← hs'] at this
        rcases this with e | ⟨_, v, o, w, h1, h2, _, h4, _⟩
        · rw [e]; exact hl
        · have h5 := i.key _ (KV.mem_of_get h1)
          have h6 := gt.observed o h2
          dsimp only at h5
          omega
      refine ⟨l, by unfold latestSet; rw [a1]; exact hne, ?_, ?_⟩
      · intro L hL
        rw [← powerDiff_spec hd hL]
        have h2 := hw.2
        have hM : maxU32 = 4294967295 := rfl
        omega
      · intro e
        exact absurd (e.trans a4) hw.1

/-- A history with small and large changes, an unbonding and an adopted set. -/
def sample : List Op :=
  [.block [⟨60, some [1]⟩, ⟨40, some [2]⟩] 4 [1], .observe 3, .block [⟨60, some [1]⟩, ⟨40, some [2]⟩] 0 [1],
   .block [⟨51, some [1]⟩, ⟨50, some [2]⟩] 0 [1], .block [⟨50, some [1]⟩, ⟨50, some [2]⟩] 0 [1]]

instance : (ops : List Op) → Decidable (Tame ops)
  | [] => .isTrue trivial
  | op :: ops =>
    have := instDecidableTame ops
    match hr : run ops with
    | none => decidable_of_iff (Tame ops) ⟨fun h => ⟨h, fun s hs => by rw [hr] at hs; cases hs⟩, fun h => h.1⟩
    | some t =>
      match op with
      | .observe n => decidable_of_iff (Tame ops ∧ (KV.get t.store n).isSome)
          ⟨fun h => ⟨h.1, fun s hs => by rw [hr] at hs; cases hs; exact h.2⟩, fun h => ⟨h.1, h.2 t hr⟩⟩
      | .setOffset n => decidable_of_iff (Tame ops ∧ t.offset ≤ n)
          ⟨fun h => ⟨h.1, fun s hs => by rw [hr] at hs; cases hs; exact h.2⟩, fun h => ⟨h.1, h.2 t hr⟩⟩
      | .block _ _ _ => decidable_of_iff (Tame ops) ⟨fun h => ⟨h, fun _ _ => trivial⟩, fun h => h.1⟩

example : Tame sample ∧ (run sample).map (fun s => (s.store.map (·.1), s.latest, s.observed, s.height)) =
    some ([4, 3], 4, some 3, 4) := by
  refine ⟨?_, by decide +kernel⟩
  decide +kernel

/-- A request never changes: whenever a set with a nonce is stored at two moments of a history, it is the same set.  So
validators are never asked to sign two sets with one nonce. -/
theorem requests_never_change {ops later : List Op} {s₁ s₂ : State} {n : Nat} {v₁ v₂ : VS}
    (ht : Tame (later ++ ops)) (h1 : run ops = some s₁) (h2 : run (later ++ ops) = some s₂)
    (g1 : KV.get s₁.store n = some v₁) (g2 : KV.get s₂.store n = some v₂) : v₁ = v₂ := by
  have key : s₁.height + s₁.offset ≤ s₂.height + s₂.offset ∧
      (KV.get s₁.store n = some v₂ ∨ s₁.height + s₁.offset < n) := by
    clear g1
    induction later generalizing s₂ v₂ with
    | nil =>
      rw [List.nil_append] at h2
      rw [h1] at h2
      cases h2
      exact ⟨Nat.le_refl _, .inl g2⟩
    | cons op later ih =>
      obtain ⟨t, ht1, hs⟩ := run_cons h2
      have i := run_inv ht1
      have hx := ht.2 t ht1
      cases op with
      | observe m =>
        cases hs
        exact ih (s₂ := t) ht.1 ht1 g2
      | setOffset m =>
        cases hs
        obtain ⟨h3, h4⟩ := ih (s₂ := t) ht.1 ht1 g2
        dsimp only at *
        exact ⟨by omega, h4⟩
      | block vals u ws =>
        obtain ⟨ms, _, rfl⟩ := block_eq hs
        obtain ⟨a1, a2, a3, a4, a5⟩ := prunes_frame ws (if wants { t with height := t.height + 1 } u ms then
          request { t with height := t.height + 1 } ms else { t with height := t.height + 1 })
        have hm := a5.mem (KV.mem_of_get g2)
        have hb : ∀ b : State, b = (if wants { t with height := t.height + 1 } u ms then
          request { t with height := t.height + 1 } ms else { t with height := t.height + 1 }) →
          b.height = t.height + 1 ∧ b.offset = t.offset ∧
            ∀ x v, (x, v) ∈ b.store → (x, v) ∈ t.store ∨ x = t.height + 1 + t.offset := by
          intro b hb
          split at hb
          · unfold request at hb
            split at hb
            · subst hb; exact ⟨rfl, rfl, fun x v h => .inl h⟩
            · subst hb
              refine ⟨rfl, rfl, fun x v h => ?_⟩
              rcases KV.mem_set.1 h with e | ⟨h, _⟩
              · exact .inr (Prod.mk.inj e).1
              · exact .inl h
          · subst hb; exact ⟨rfl, rfl, fun x v h => .inl h⟩
        obtain ⟨b1, b2, b3⟩ := hb _ rfl
        rw [a3, a4, b1, b2]
        have hle : ∀ {later : List Op} {t : State}, Tame (later ++ ops) → run (later ++ ops) = some t →
            s₁.height + s₁.offset ≤ t.height + t.offset := by
          intro later
          induction later with
          | nil => intro t _ h; rw [List.nil_append, h1] at h; cases h; exact Nat.le_refl _
          | cons op later ih2 =>
            intro t ht h
            obtain ⟨r, hr1, hrs⟩ := run_cons h
            have h5 := ih2 ht.1 hr1
            have hx := ht.2 r hr1
            cases op with
            | observe m => cases hrs; exact h5
            | setOffset m => cases hrs; dsimp only at *; omega
            | block vals u ws =>
              obtain ⟨ms, _, rfl⟩ := block_eq hrs
              obtain ⟨c1, c2, c3, c4, c5⟩ := prunes_frame ws (if wants { r with height := r.height + 1 } u ms then
                request { r with height := r.height + 1 } ms else { r with height := r.height + 1 })
              rw [c3, c4]
              split
              · unfold request; split <;> (dsimp only; omega)
              · dsimp only; omega
        have h6 := hle ht.1 ht1
        refine ⟨by omega, ?_⟩
        rcases b3 n v₂ hm with h | h
        · exact (ih ht.1 ht1 (KV.get_of_mem i.dist h)).2
        · right; omega
  have hb : n ≤ s₁.height + s₁.offset := by
    have ht' : Tame ops := by
      clear key h2 g2
      induction later with
      | nil => exact ht
      | cons op later ih => exact ih ht.1
    have g := tame_good ht' h1
    exact Nat.le_trans (g.bound n v₁ g1) g.latest
  rcases key.2 with h | h
  · rw [g1] at h; cases h; rfl
  · omega

example : ∃ s₁ s₂, run (sample.drop 2) = some s₁ ∧ run sample = some s₂ ∧ (KV.get s₁.store 3).isSome ∧
    (KV.get s₂.store 3).isSome ∧ Tame (sample.take 2 ++ sample.drop 2) := by
  refine ⟨_, _, rfl, rfl, ?_, ?_, ?_⟩ <;> decide +kernel

/-- A request disappears only when the counterparty chain has adopted a later one and the signing window of some chain has
passed since the request. -/
theorem pruned_only_when_superseded {ops : List Op} {s s' : State} {op : Op} {n : Nat} {v : VS} (h : run ops = some s)
    (hs : step s op = some s') (hg : KV.get s.store n = some v) (hn : KV.get s'.store n = none) :
    ∃ vals u ws o w, op = .block vals u ws ∧ s.observed = some o ∧ n < o ∧ w ∈ ws ∧ v.height + w < s'.height := by
  have i := run_inv h
  cases op with
  | observe m => cases hs; rw [hg] at hn; cases hn
  | setOffset m => cases hs; rw [hg] at hn; cases hn
  | block vals u ws =>
    obtain ⟨ms, _, rfl⟩ := block_eq hs
    have hb : ∀ b : State, b = (if wants { s with height := s.height + 1 } u ms then
          request { s with height := s.height + 1 } ms else { s with height := s.height + 1 }) →
        b.observed = s.observed ∧ KV.Distinct b.store ∧
          (KV.get b.store n = some v ∨ ∃ v', KV.get b.store n = some v' ∧ v'.height = b.height) := by
      intro b hb
      split at hb
      · unfold request at hb
        split at hb
        · subst hb; exact ⟨rfl, i.dist, .inl hg⟩
        · subst hb
          refine ⟨rfl, KV.distinct_set i.dist _ _, ?_⟩
          dsimp only
          rw [KV.get_set]
          split
          · exact .inr ⟨_, rfl, rfl⟩
          · exact .inl hg
      · subst hb; exact ⟨rfl, i.dist, .inl hg⟩
    obtain ⟨b1, b2, b3⟩ := hb _ rfl
    obtain ⟨a1, a2, a3, a4, a5⟩ := prunes_frame ws (if wants { s with height := s.height + 1 } u ms then
          request { s with height := s.height + 1 } ms else { s with height := s.height + 1 })
    have hkey := i.key _ (KV.mem_of_get hg)
    dsimp only at hkey
    rcases prunes_get ws _ n b2 with e | ⟨_, v', o, w, h1, h2, h3, h4, h5⟩
    · rw [e] at hn
      rcases b3 with h | ⟨_, h, _⟩ <;> (rw [h] at hn; cases hn)
    · rcases b3 with h | ⟨v'', h, hh⟩
      · rw [h1] at h
        cases h
        exact ⟨vals, u, ws, o, w, rfl, b1 ▸ h2, by omega, h3, by omega⟩
      · rw [h1] at h
        cases h
        omega

example : ∃ s s', run (sample.drop 1) = some s ∧ step s (.block [⟨60, some [1]⟩] 0 [1]) = some s' ∧
    (KV.get s.store 1).isSome ∧ KV.get s'.store 1 = none := by
  refine ⟨_, _, rfl, rfl, ?_, ?_⟩ <;> decide +kernel

/-- The code prunes the sets of every chain with the windows of all chains (abci.go 565, 575-577): the set of a chain whose
window is 1000 blocks disappears after two blocks because another chain has a window of one block; with its own window
alone it would have stayed. -/
theorem pruned_by_window_of_other_chain :
    (run [.block [⟨60, some [1]⟩, ⟨40, some [2]⟩] 0 [1000, 1], .observe 3, .block [⟨60, some [1]⟩, ⟨40, some [2]⟩] 0 [1000],
      .block [⟨50, some [1]⟩, ⟨50, some [2]⟩] 2 [1000], .block [⟨50, some [1]⟩, ⟨50, some [2]⟩] 0 [1000]]).map
        (fun s => s.store.map (·.1)) = some [3] ∧
    (run [.block [⟨60, some [1]⟩, ⟨40, some [2]⟩] 0 [1000], .observe 3, .block [⟨60, some [1]⟩, ⟨40, some [2]⟩] 0 [1000],
      .block [⟨50, some [1]⟩, ⟨50, some [2]⟩] 2 [1000], .block [⟨50, some [1]⟩, ⟨50, some [2]⟩] 0 [1000]]).map
        (fun s => s.store.map (·.1)) = some [3, 2, 1] := by decide +kernel

/-- Without the assumption on the offset: after an administrator lowers it, a nonce is used for a different set. -/
theorem lowered_offset_reuses_nonce :
    (run [.setOffset 1, .block [⟨50, some [1]⟩, ⟨50, some [2]⟩] 0 [1000]]).map (fun s => s.store.map (fun e => (e.1, e.2.members.length))) =
      some [(1, 2)] ∧
    (run [.block [⟨50, some [1]⟩] 0 [1000], .setOffset 0, .block [⟨60, some [1]⟩, ⟨40, some [2]⟩] 0 [1000], .setOffset 1]).map
      (fun s => s.store.map (fun e => (e.1, e.2.members.length))) = some [(2, 1)] := by decide +kernel

end Hyperion.Valset
