import Verif.Hyperion.Genesis
/-!
# Theorems about exporting and importing the bridge

The full property: after export and import every pending withdrawal is where it was (waiting ones waiting, batched ones in
their batch) and new ids and nonces continue the old ones.  Batches, the stored withdrawals and the nonces do survive
(`genesis_keeps_partial`); the waiting withdrawals are no longer waiting and ids start again (`genesis_forgets_waiting`,
`genesis_reuses_ids`).
-/
namespace Hyperion

variable {cfg : Cfg} {s : State}

/-- Export never panics; after the import the stored withdrawals and the batches of the exported chains are exactly the
old ones, and batch nonces continue. -/
theorem genesis_keeps_partial (h : Reachable cfg s) (hids : List Nat) :
    ∃ s', reborn s hids = some s' ∧
      (∀ e, e ∈ s'.pool ↔ e ∈ s.pool ∧ e.2.hid ∈ hids) ∧
      (∀ e, e ∈ s'.batches ↔ e ∈ s.batches ∧ e.2.hid ∈ hids) ∧
      (∀ hid ∈ hids, s'.lastBatch hid = s.lastBatch hid) := by
  obtain ⟨sent, base, i⟩ := h.inv
  obtain ⟨gs, hgs⟩ := exportGenesis_ok i hids
  have hsub : Sub s (State.init s.bank s.links) := ⟨by simp [State.init], by simp [State.init]⟩
  obtain ⟨b1, _, b3, b4, b5, b6, b7⟩ := importGenesis_spec i hgs hsub
  refine ⟨importGenesis s.bank s.links gs, by simp [reborn, hgs], ?_, ?_, ?_⟩
  · intro e
    refine ⟨fun he => ⟨b1.pool e he, ?_⟩, fun ⟨h1, h2⟩ => b3 e h1 h2⟩
    rcases b5 e he with h | h
    · simp [State.init] at h
    · exact h
  · intro e
    refine ⟨fun he => ⟨b1.batches e he, ?_⟩, fun ⟨h1, h2⟩ => b4 e h1 h2⟩
    rcases b6 e he with h | h
    · simp [State.init] at h
    · exact h
  · intro hid hm
    rw [show (importGenesis s.bank s.links gs).lastBatch hid = _ from b7 hid, if_pos hm]

/-- The sample state: two withdrawals waiting, two in a batch. -/
def pending0 : State := (run cfg0 (State.init bank0 links0) (ops0.take 5)).1

example : Reachable cfg0 pending0 := ⟨bank0, links0, ops0.take 5, by decide, rfl⟩
example : pending0.pool.length = 4 ∧ pending0.batches.length = 1 := by decide +kernel

/-- After the import no withdrawal is waiting, although two were; their senders can no longer get them back, and no batch
can be built from them. -/
theorem genesis_forgets_waiting :
    (available pending0).map (·.id) = [4, 1] ∧
    (reborn pending0 [1]).map (fun s => (available s).map (·.id)) = some [] ∧
    (step cfg0 pending0 (.cancelSend 1 1 1)).2 = .ok [] ∧
    (reborn pending0 [1]).map (fun s => (step cfg0 s (.cancelSend 1 1 1)).2) = some .err ∧
    (reborn pending0 [1]).map (fun s => (step cfg0 s (.requestBatchIds 1 (.named 5) 50 [1])).2) = some .err := by
  decide +kernel

/-- After the import the next withdrawal gets id 1 again and overwrites the pending withdrawal 1. -/
theorem genesis_reuses_ids :
    (KV.get pending0.pool (1, 1)).map (·.amount) = some 10 ∧
    (reborn pending0 [1]).map (fun s =>
      KV.get (step cfg0 s (.send 2 1 12 (.named 5) 500 ahelios 0 900)).1.pool (1, 1)) =
      some (some { id := 1, sender := 2, hid := 1, dest := 12, token := 77, amount := 500, fee := 0, timeout := 900 }) := by
  decide +kernel

end Hyperion
