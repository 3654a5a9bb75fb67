import Verif.Hyperion.Pool
/-!
# What the outgoing side of the bridge should do

Everything here is read off the outcomes of a history and the raw contents of the stores.
-/
namespace Hyperion

/-- Events of an outcome. -/
def Out.evs : Out → List Ev
  | .ok evs => evs
  | _ => []

/-- Events of a history. -/
def events (outs : List Out) : List Ev := outs.flatMap Out.evs

/-- The withdrawals accepted, in order. -/
def sentIn (evs : List Ev) : List Tx :=
  evs.filterMap (fun e => match e with
    | .sent tx => some tx
    | _ => none)

/-- The nonces handed out for one counterparty chain, to batches and to data requests, in order. -/
def noncesIn (hid : Nat) (evs : List Ev) : List Nat :=
  evs.filterMap (fun e => match e with
    | .batch b => if b.hid = hid then some b.nonce else none
    | .data h n => if h = hid then some n else none
    | _ => none)

/-- Coins of a denomination that came into being through deposits, and through the creation of a token (one unit each). -/
def issuedIn (d : Denom) : List Ev → Nat
  | [] => 0
  | .deposited d' n :: evs => (if d' = d then n else 0) + issuedIn d evs
  | .created d' :: evs => (if d' = d then 1 else 0) + issuedIn d evs
  | _ :: evs => issuedIn d evs

/-- The withdrawals waiting to be put into a batch: those listed in the fee index. -/
def available (s : State) : List Tx :=
  s.index.flatMap (fun e => e.2.filterMap (fun id => KV.get s.pool (e.1.1, id)))

/-- The withdrawals in outgoing batches, counted as often as they occur. -/
def batched (s : State) : List Tx := s.batches.flatMap (fun e => e.2.txs)

/-- The withdrawals recorded as ended in one way. -/
def endedAs (s : State) (r : Ended) : List Tx := (s.finalized.filter (fun e => decide (e.2 = r))).map (·.1)

/-- The coin a withdrawal is about. -/
def denomOf (links : List Link) (tx : Tx) : Option Denom := (linkByAddr links tx.hid tx.token).map (·.denom)

/-- The amount of denomination `d` some withdrawals stand for. -/
def amountIn (links : List Link) (d : Denom) (txs : List Tx) : Nat :=
  (txs.map (fun tx => if denomOf links tx = some d then tx.amount else 0)).sum

/-- What user `u` gets back in denomination `d` when some withdrawals are refunded: the amounts, and the fees in ahelios. -/
def refundTo (links : List Link) (u : Nat) (d : Denom) (txs : List Tx) : Nat :=
  (txs.map (fun tx => if tx.sender = u then
    (if denomOf links tx = some d then tx.amount else 0) + (if d = ahelios then tx.fee else 0) else 0)).sum

/-- The amount of a token of one chain that pending withdrawals (waiting or batched) stand for. -/
def pendingOf (s : State) (hid addr : Nat) : Nat :=
  (s.pool.map (fun e => if e.2.hid = hid ∧ e.2.token = addr then e.2.amount else 0)).sum

/-- An operation an honest environment performs: withdrawals come from accounts the bank can pay, and a deposit of a coin
of this chain brings back no more than what is out on the other chain and not still pending here. -/
def honest (cfg : Cfg) (s : State) : Op → Bool
  | .send sender _ _ _ _ _ _ _ => !cfg.blocked sender
  | .deposit hid addr amount _ => decide (amount + pendingOf s hid addr ≤ lockedOf s.links hid addr) ||
      decide ((linkByAddr s.links hid addr).map (fun l => isCosmos s.links l.denom) ≠ some true)
  | _ => true

/-- A history all of whose operations are honest in the state they meet. -/
def honestRun (cfg : Cfg) (s : State) : List Op → Bool
  | [] => true
  | o :: os => honest cfg s o && honestRun cfg (step cfg s o).1 os

/-- No contract is listed twice on one chain. -/
def LinksOk (links : List Link) : Prop := (links.map (fun l => (l.hid, l.addr))).Nodup

instance (links : List Link) : Decidable (LinksOk links) := inferInstanceAs (Decidable (List.Nodup _))

/-- States reached by some history from some bank and some well-formed list of token links. -/
def Reachable (cfg : Cfg) (s : State) : Prop :=
  ∃ bank links ops, LinksOk links ∧ s = (run cfg (State.init bank links) ops).1

/-- The withdrawals of batches handed out to the orchestrators. -/
def handedOut (hid nonce token : Nat) (evs : List Ev) : List Tx :=
  evs.flatMap (fun e => match e with
    | .batch b => if b.hid = hid ∧ b.nonce = nonce ∧ b.token = token then b.txs else []
    | _ => [])

end Hyperion
