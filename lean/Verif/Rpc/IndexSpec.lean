import Verif.Rpc.Index
/-!
# Specification: the Ethereum transactions of a chain and where they are

Written without the model's events, parser, listing or database: from the transactions of the blocks
and what became of them.
-/

namespace EthIndex

/-- An Ethereum transaction of a block: the Cosmos transaction and the message it is, the message, was
it executed, and the gas of the earlier messages of the same Cosmos transaction. -/
structure Place where
  tx : Nat
  msg : Nat
  m : Msg
  ran : Bool
  before : Nat
  deriving DecidableEq, Repr

/-- The gas it paid for: what it used, or its limit when it was not executed. -/
def Place.paid (p : Place) : Nat := if p.ran then p.m.used else p.m.gas

/-- Did it fail? -/
def Place.fails (p : Place) : Bool := !p.ran || decide (p.m.error ≠ [])

/-- The messages of one Cosmos transaction. -/
def placesIn (tx : Nat) (ran : Bool) : (j before : Nat) → List Msg → List Place
  | _, _, [] => []
  | j, before, m :: ms =>
    let p : Place := ⟨tx, j, m, ran, before⟩
    p :: placesIn tx ran (j + 1) (before + p.paid) ms

/-- The Ethereum transactions of a block in their order: all messages of the transactions that were
executed or have failed with one of the two errors after which they still count. -/
def places : (i : Nat) → List Step → List Place
  | _, [] => []
  | i, s :: ss =>
    (match s.fate with
      | .ok => placesIn i true 0 0 s.tx.eths
      | .spent => placesIn i false 0 0 s.tx.eths
      | .refused _ => []) ++ places (i + 1) ss

/-- What the index should say of the `n`-th Ethereum transaction of a block. -/
def record (height n : Nat) (p : Place) : Rec :=
  ⟨height, p.tx, p.msg, n, p.paid, p.fails, p.before + p.paid⟩

/-- What the ante handlers and the gas meter see to for a transaction that counts: its bytes decode, it
has the Ethereum option exactly when it holds Ethereum messages and then holds nothing else, and the
gas in the result of an executed one is the gas its messages used. -/
def Sound (s : Step) : Prop :=
  (∃ a, s.fate = .refused a) ∨
  (s.tx.decodes = true ∧
    ((s.tx.ext = true ∧ s.tx.msgs = s.tx.eths.map some ∧
        (s.fate = .ok → s.gas = (s.tx.eths.map (·.used)).sum)) ∨
     (s.tx.ext = false ∧ s.tx.eths = [])))

instance (s : Step) : Decidable (Sound s) := by
  unfold Sound
  have : Decidable (∃ a, s.fate = .refused a) := by
    cases h : s.fate with
    | ok => exact isFalse (fun ⟨_, e⟩ => nomatch e)
    | spent => exact isFalse (fun ⟨_, e⟩ => nomatch e)
    | refused a => exact isTrue ⟨a, rfl⟩
  infer_instance

/-- A block of which every number fits its key. -/
def Fits (b : List Step) : Prop :=
  (∀ s ∈ b, Sound s) ∧ (places 0 b).length < 256 ^ 8 ∧ ∀ p ∈ places 0 b, p.m.hash < 256 ^ 32

/-- No Ethereum transaction is in the chain twice. -/
def Unique (chain : Nat → List Step) : Prop :=
  ∀ (h h' k k' : Nat) (p p' : Place), (places 0 (chain h))[k]? = some p → (places 0 (chain h'))[k']? = some p' →
    p.m.hash = p'.m.hash → h = h' ∧ k = k'

/-- The index of the blocks after `lo` and up to `hi`: every Ethereum transaction is found by its hash
and by its number, with the right record, and nothing else is found. -/
def Exact (chain : Nat → List Step) (db : DB) (lo hi : Nat) : Prop :=
  (∀ (h k : Nat) (p : Place), lo < h → h ≤ hi → (places 0 (chain h))[k]? = some p →
    byHash db p.m.hash = some (record h k p) ∧ byIndex db h k = some (record h k p)) ∧
  (∀ x r, x < 256 ^ 32 → byHash db x = some r → ∃ (h k : Nat) (p : Place), lo < h ∧ h ≤ hi ∧ (places 0 (chain h))[k]? = some p ∧
    p.m.hash = x ∧ r = record h k p) ∧
  (∀ h k r, h < 256 ^ 8 → k < 256 ^ 8 → byIndex db h k = some r →
    ∃ p, lo < h ∧ h ≤ hi ∧ (places 0 (chain h))[k]? = some p ∧ r = record h k p)

/-- The chain with the results of its blocks. -/
def ran (chain : Nat → List Step) (h : Nat) : List (Tx × Result) := execBlock 0 (chain h)

/-- No write fails, the service never starts again on an empty index unless it has dealt with every
block the node has, and heights fit 63 bits. -/
def Calm (chain : Nat → List Step) : Service → List Op → Prop
  | _, [] => True
  | s, op :: ops =>
    (match op with
      | .header h => h < 2 ^ 63
      | .next written => written = true
      | .restart latest => latest < 2 ^ 63 ∧ (lastBlock s.db ≠ none ∨ latest = s.last)) ∧
    Calm chain (serve (ran chain) s op) ops

end EthIndex
