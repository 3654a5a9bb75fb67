import Verif.Hyperion.PoolLemmas9
import Verif.Hyperion.PoolProps
/-!
# Coins of this chain cannot be multiplied by the bridge
-/
namespace Hyperion

/-- Whatever the other chains report, honestly or not: the amount of a coin of this chain that exists here plus the
amount recorded as out on other chains never changes, except for the one unit made each time the coin is linked to a
chain. -/
theorem native_supply_constant (cfg : Cfg) (bank : Bank) (links : List Link) (hl : LinksOk links) (n : Nat)
    (hn : ∀ l ∈ links, l.denom = .named n → l.originated = false) (ops : List Op) :
    let r := run cfg (State.init bank links) ops
    r.1.bank.supply (.named n) + lockedTotal r.1.links (.named n) =
      bank.supply (.named n) + lockedTotal links (.named n) + createdIn (.named n) (events r.2) := by
  refine (run_native (cfg := cfg) ops (k := bank.supply (.named n) + lockedTotal links (.named n))
    (s := State.init bank links) ⟨hl, ?_, rfl⟩).eq
  show isCosmos links (.named n) = true
  rw [isCosmos, List.all_eq_true]
  intro l h
  by_cases hd : l.denom = .named n
  · simp [hd, hn l h hd]
  · simp [hd]

example : (∀ l ∈ links0, l.denom = .named 5 → l.originated = false) ∧
    (run cfg0 (State.init bank0 links0) ops0).1.bank.supply (.named 5) < bank0.supply (.named 5) := by decide +kernel

/-- A deposit of a coin of this chain is accepted only up to the amount recorded as out on that chain, and lowers the
record by its amount. -/
theorem deposit_within_locked (cfg : Cfg) (s : State) (hk : LinksOk s.links) (hid addr amount : Nat) (receiver : Option Nat)
    {l : Link} (hl : linkByAddr s.links hid addr = some l) (hn : ∀ x ∈ s.links, x.denom = l.denom → x.originated = false)
    {evs : List Ev} (h : (step cfg s (.deposit hid addr amount receiver)).2 = .ok evs) :
    amount ≤ l.locked ∧
    linkByAddr (step cfg s (.deposit hid addr amount receiver)).1.links hid addr = some { l with locked := l.locked - amount } := by
  have hc : isCosmos s.links l.denom = true := by
    rw [isCosmos, List.all_eq_true]
    intro x hx
    by_cases hd : x.denom = l.denom
    · simp [hd, hn x hx hd]
    · simp [hd]
  simp only [step] at h ⊢
  cases hd : deposit cfg s hid addr amount receiver with
  | none => rw [hd] at h; cases h
  | some r =>
    simp only
    unfold deposit at hd
    rw [hl] at hd
    dsimp only at hd
    rw [hc] at hd
    simp only [if_true] at hd
    split at hd
    · cases hd
    · rename_i links hch
      split at hch
      · cases hch
      · rename_i hlt
        rw [lockedOf_eq hl] at hlt hch
        cases hch
        split at hd
        · cases hd
        · cases hd
          refine ⟨by omega, ?_⟩
          simp only
          rw [linkByAddr_setLocked, hl]
          obtain ⟨k1, k2⟩ := linkByAddr_key hl
          simp [k1, k2]

/-- What went out may come back, one unit more may not. -/
example :
    let s := (run cfg0 (State.init bank0 links0) (ops0.take 1)).1
    (lockedOf s.links 1 77, (step cfg0 s (.deposit 1 77 (lockedOf s.links 1 77) (some 8))).2,
      (step cfg0 s (.deposit 1 77 (lockedOf s.links 1 77 + 1) (some 8))).2) =
    (lockedOf s.links 1 77, .ok [.deposited (.named 5) (lockedOf s.links 1 77)], .err) ∧ 0 < lockedOf s.links 1 77 := by
  decide +kernel

end Hyperion
