import Verif.Authority.CallsSpec
/-!
# A small chain for the examples

Coins and stake of accounts, jailed validators, and the accounts rewards are paid to. The validators are 70 and 71.
-/
namespace Authority

structure Toy where
  coins : List (Addr × Nat)
  staked : List (Addr × Nat)
  jailed : List Addr
  payTo : List (Addr × Addr)
deriving DecidableEq, Repr

def Toy.have_ (l : List (Addr × Nat)) (a : Addr) : Nat := (KV.get l a).getD 0

def Toy.exec (w : Toy) : Msg → Option Toy
  | .delegate d _ c => if Toy.have_ w.coins d < c.amount then none else
      some { w with coins := KV.set w.coins d (Toy.have_ w.coins d - c.amount), staked := KV.set w.staked d (Toy.have_ w.staked d + c.amount) }
  | .undelegate d _ c => if Toy.have_ w.staked d < c.amount then none else
      some { w with staked := KV.set w.staked d (Toy.have_ w.staked d - c.amount) }
  | .fundCommunityPool d c => if Toy.have_ w.coins d < c.amount then none else
      some { w with coins := KV.set w.coins d (Toy.have_ w.coins d - c.amount) }
  | .unjail v => if v ∈ w.jailed then some { w with jailed := w.jailed.filter (· ≠ v) } else none
  | .setWithdrawAddress d t => some { w with payTo := KV.set w.payTo d t }
  | .vote .. | .submitProposal .. | .storeLogo .. => some w
  | _ => none

/-- Coin 1 is the coin of the stake, coins 1 and 2 may be staked, approvals last for 100. -/
def toy : Chain Toy where
  exec := Toy.exec
  active w := [70, 71].filter (· ∉ w.jailed)
  listed _ d := d == 1 || d == 2
  bond := 1
  lasts := 100

/-- Account 1 has 500 coins and a stake of 40, contract 9 has 30 coins, validator 71 is jailed. -/
def toy0 : St Toy := ⟨10, [], ⟨[(1, 500), (9, 30)], [(1, 40)], [71], []⟩⟩

/-- What an account owns on the small chain. -/
def Toy.owns (w : Toy) (a : Addr) : Option Nat × Option Nat × Bool × Option Addr :=
  (KV.get w.coins a, KV.get w.staked a, decide (a ∈ w.jailed), KV.get w.payTo a)

theorem Toy.exec_owns {w w' : Toy} {m : Msg} {a : Addr} (h : w.exec m = some w') (hne : a ≠ m.actsFor) : w'.owns a = w.owns a := by
  unfold Toy.exec at h
  split at h
  case h_1 d v c =>
    have hne : a ≠ d := hne
    split at h
    · cases h
    · cases h
      unfold Toy.owns
      dsimp only
      rw [KV.get_set, if_neg hne, KV.get_set, if_neg hne]
  case h_2 d v c =>
    have hne : a ≠ d := hne
    split at h
    · cases h
    · cases h
      unfold Toy.owns
      dsimp only
      rw [KV.get_set, if_neg hne]
  case h_3 d c =>
    have hne : a ≠ d := hne
    split at h
    · cases h
    · cases h
      unfold Toy.owns
      dsimp only
      rw [KV.get_set, if_neg hne]
  case h_4 v =>
    have hne : a ≠ v := hne
    split at h
    · cases h
      unfold Toy.owns
      dsimp only
      have : decide (a ∈ w.jailed.filter (· ≠ v)) = decide (a ∈ w.jailed) := by
        apply decide_eq_decide.mpr
        rw [List.mem_filter]
        exact ⟨fun hx => hx.1, fun hx => ⟨hx, by rw [decide_eq_true_iff]; exact hne⟩⟩
      rw [this]
    · cases h
  case h_5 d t =>
    have hne : a ≠ d := hne
    cases h
    unfold Toy.owns
    dsimp only
    rw [KV.get_set, if_neg hne]
  case h_6 => cases h; rfl
  case h_7 => cases h; rfl
  case h_8 => cases h; rfl
  case h_9 => cases h

/-- On the small chain an account is touched when what it owns changes. -/
def toyOwnership : Ownership toy where
  touched w w' a := w'.owns a ≠ w.owns a
  byMessage _ _ _ _ h ht := Classical.byContradiction fun hne => ht (Toy.exec_owns h hne)
  still _ _ h := h rfl
  either w₁ w₂ w₃ a h := by
    by_cases h1 : w₂.owns a = w₁.owns a
    · exact .inr (fun h2 => h (h2.trans h1))
    · exact .inl h1

end Authority
