import Verif.Rpc.Logs

/-!
# Polling filters

Models `eth_newFilter`, `eth_newBlockFilter`, `eth_newPendingTransactionFilter`,
`eth_getFilterChanges` and `eth_uninstallFilter` as a system of goroutines
(/repo/helios-chain/rpc/namespaces/ethereum/eth/filters/api.go, filter_system.go, subscription.go and
/repo/helios-chain/rpc/ethereum/pubsub/pubsub.go): the API with its table of filters, one goroutine
for each filter, the loop that installs and uninstalls, the loop that reads the events of the
CometBFT node, and the event bus with one publishing goroutine for each topic that was opened.

A step is what one goroutine does between two points where others can come in between; the schedule
is a list of steps. Creating a filter is one step. All channels are unbuffered, as in the code.
-/

namespace Poll

open LogQuery (Log Criteria filterLogs)

/-- The three kinds of filters. Each kind has one topic of events (filter_system.go lines 30-39,
181-222). -/
inductive Kind
  | logs
  | blocks
  | pending
  deriving DecidableEq, Repr

/-- What a filter of logs is created with (the other kinds take nothing). -/
structure Crit where
  fromBlock : Option Int
  toBlock : Option Int
  crit : Criteria
  deriving DecidableEq, Repr

/-- The content of an event: the logs of the responses to the messages of an Ethereum transaction
(nothing if the response cannot be decoded), the hash of a header, or the hashes of the Ethereum
messages of a transaction. -/
inductive Body
  | txLogs (responses : Option (List (List Log)))
  | header (hash : Nat)
  | txHashes (hashes : List Nat)
  deriving DecidableEq, Repr

/-- An event of the CometBFT node: its place in the stream, the query it answers, its content. -/
structure Ev where
  no : Nat
  kind : Kind
  body : Body
  deriving DecidableEq, Repr

/-- What a poll returns a list of. -/
inductive Item
  | log (l : Log)
  | hash (h : Nat)
  deriving DecidableEq, Repr

/-- A filter: its entry in the table of the API, its goroutine, and its places in the index of the
event system and among the subscribers of the event bus.

`listed`: in the table of the API. `buf`: what waits for the next poll. `running`, `holding`: its
goroutine, and the event it received last and has yet to handle. `subscribed`: the bus publishes to
its channel. `chClosed`, `errClosed`: its two channels were closed. `indexed`: in the index of the
event system. `asked`: a request to uninstall it waits for the loop. Kept to state properties, and
used nowhere: `opener` (it opened the topic), `removed`
(it was uninstalled or timed out), `got` (all that polls returned). -/
structure Fil where
  kind : Kind
  crit : Crit
  listed : Bool
  buf : List Item
  running : Bool
  holding : Option Ev
  subscribed : Bool
  chClosed : Bool
  errClosed : Bool
  indexed : Bool
  asked : Bool
  opener : Bool
  removed : Bool
  got : List Item
  deriving DecidableEq, Repr

/-- A goroutine of the event bus: the event it read last and has yet to publish, whether the channel
it reads was closed, whether it ended (pubsub.go lines 104-117). -/
structure Pub where
  kind : Kind
  holding : Option Ev
  closed : Bool
  ended : Bool
  deriving DecidableEq, Repr

/-- All goroutines. `topics` are those of the event bus, `chan` the channels of the event system by
topic; a channel is named by its reader. `inflight` is the event the reading loop is about to send,
and where. `log` is all that the node has reported so far. -/
structure State where
  fil : Nat → Option Fil
  next : Nat
  pub : Nat → Option Pub
  nextPub : Nat
  topics : Kind → Bool
  chan : Kind → Option Nat
  inflight : Option (Nat × Ev)
  log : List Ev
  crashed : Bool

/-- At the start (api.go lines 84-98, filter_system.go lines 68-92). -/
def init : State where
  fil := fun _ => none
  next := 0
  pub := fun _ => none
  nextPub := 0
  topics := fun _ => false
  chan := fun _ => none
  inflight := none
  log := []
  crashed := false

def setAt (m : Nat → Option α) (i : Nat) (a : α) : Nat → Option α := fun j => if j = i then some a else m j

def setKind (m : Kind → α) (k : Kind) (a : α) : Kind → α := fun j => if j = k then a else m j

/-- How many filters the table holds. -/
def count (s : State) : Nat :=
  (List.range s.next).countP (fun i => (s.fil i).any (·.listed))

/-- `SubscribeLogs` accepts the range of blocks (filter_system.go lines 153-177). -/
def rangeOk (c : Crit) : Bool :=
  let f := c.fromBlock.getD (-1)
  let t := c.toBlock.getD (-1)
  decide ((f = -1 ∧ t = -1) ∨ (0 ≤ f ∧ 0 ≤ t ∧ f ≤ t) ∨ (0 ≤ f ∧ t = -1))

/-- The kind of filter accepts its parameters. -/
def accepts (k : Kind) (c : Crit) : Bool :=
  match k with
  | .logs => rangeOk c
  | .blocks => true
  | .pending => true

/-- A new filter (api.go lines 144-149, 272, 460-466). -/
def newFil (k : Kind) (c : Crit) (opener : Bool) : Fil where
  kind := k
  crit := c
  listed := true
  buf := []
  running := true
  holding := none
  subscribed := true
  chClosed := false
  errClosed := false
  indexed := opener
  asked := false
  opener := opener
  removed := false
  got := []

/-- `NewFilter`, `NewBlockFilter`, `NewPendingTransactionFilter` (api.go lines 130-189, 257-305,
441-515) with `subscribe` (filter_system.go lines 96-147), the `install` case of the loop (lines
231-242), `AddTopic` and `Subscribe` of the bus (pubsub.go lines 55-101). When the topic exists
already the filter does not enter the index. `nodeOk` is whether the node accepts the query. -/
def create (cap : Nat) (k : Kind) (c : Crit) (nodeOk : Bool) (s : State) : State :=
  if count s ≥ cap then s
  else if accepts k c = false then s
  else if s.topics k then
    { s with fil := setAt s.fil s.next (newFil k c false), next := s.next + 1 }
  else if nodeOk = false then s
  else
    { s with
      fil := setAt s.fil s.next (newFil k c true), next := s.next + 1,
      pub := setAt s.pub s.nextPub ⟨k, none, false, false⟩, nextPub := s.nextPub + 1,
      topics := setKind s.topics k true, chan := setKind s.chan k (some s.nextPub) }

/-- The reading loop takes an event and looks up the channel of its topic (filter_system.go lines
273-308). -/
def emit (k : Kind) (b : Body) (s : State) : State :=
  match s.inflight with
  | some _ => s
  | none =>
    let e : Ev := ⟨s.log.length, k, b⟩
    match s.chan k with
    | none => { s with log := s.log ++ [e] }
    | some c => { s with log := s.log ++ [e], inflight := some (c, e) }

/-- The reading loop sends (filter_system.go line 315). Sending on a closed channel panics, and
nothing recovers; sending waits while the reader is busy. -/
def send (s : State) : State :=
  match s.inflight with
  | none => s
  | some (c, e) =>
    match s.pub c with
    | none => s
    | some p =>
      if p.closed then { s with crashed := true }
      else match p.holding with
        | some _ => s
        | none => { s with pub := setAt s.pub c { p with holding := some e }, inflight := none }

/-- The reading loop gives up after a second (filter_system.go lines 311-314). -/
def drop (s : State) : State := { s with inflight := none }

/-- One subscriber of `publishAllSubscribers` (pubsub.go lines 136-142): it gets the event if its
goroutine waits at that moment, else the event is lost to it. -/
def offer (k : Kind) (e : Ev) (ready : Bool) (f : Fil) : Fil :=
  if f.subscribed ∧ f.kind = k ∧ f.running ∧ f.holding = none ∧ ready then
    { f with holding := some e }
  else f

/-- `publishAllSubscribers` (pubsub.go lines 131-143); `ready` are the goroutines that wait. -/
def publish (c : Nat) (ready : List Nat) (s : State) : State :=
  match s.pub c with
  | none => s
  | some p =>
    match p.holding with
    | none => s
    | some e =>
      { s with
        fil := fun i => (s.fil i).map (offer p.kind e (ready.contains i)),
        pub := setAt s.pub c { p with holding := none } }

/-- One subscriber of `closeAllSubscribers` (pubsub.go lines 119-129). -/
def shut (k : Kind) (f : Fil) : Fil :=
  if f.subscribed ∧ f.kind = k then { f with chClosed := true, subscribed := false } else f

/-- The publishing goroutine finds its channel closed (pubsub.go lines 105-113). -/
def pubEnd (c : Nat) (s : State) : State :=
  match s.pub c with
  | none => s
  | some p =>
    if p.closed ∧ p.ended = false ∧ p.holding = none then
      { s with
        fil := fun i => (s.fil i).map (shut p.kind),
        pub := setAt s.pub c { p with ended := true },
        topics := setKind s.topics p.kind false }
    else s

/-- What the goroutine of a filter makes of an event; nothing if it stops (api.go lines 155-183,
275-296, 470-501, with `DecodeTxResponse`, x/evm/types/utils.go lines 33-49, which decodes the
response to the first message only). -/
def wanted (f : Fil) (e : Ev) : Option (List Item) :=
  match e.body with
  | .txLogs none => none
  | .txLogs (some []) => some []
  | .txLogs (some (r :: _)) =>
    some ((filterLogs f.crit.fromBlock f.crit.toBlock f.crit.crit r).map .log)
  | .header h => some [.hash h]
  | .txHashes hs => some (hs.map .hash)

/-- The goroutine of a filter handles the event it received. -/
def handled (f : Fil) (e : Ev) : Fil :=
  match wanted f e with
  | none => { f with holding := none, running := false, subscribed := false }
  | some is => if f.listed then { f with holding := none, buf := f.buf ++ is }
    else { f with holding := none }

def handle (i : Nat) (s : State) : State :=
  match s.fil i with
  | none => s
  | some f =>
    match f.holding with
    | none => s
    | some e => if f.running then { s with fil := setAt s.fil i (handled f e) } else s

/-- The goroutine finds its channel of events closed (api.go lines 156-161, 276-281, 471-476). -/
def chEnd (i : Nat) (s : State) : State :=
  match s.fil i with
  | none => s
  | some f =>
    if f.running ∧ f.holding = none ∧ f.chClosed then
      { s with fil := setAt s.fil i { f with listed := false, running := false } }
    else s

/-- The goroutine finds its channel of errors closed (api.go lines 184-188, 297-302, 502-507). That
of a filter of pending transactions goes on with its loop. -/
def errEnd (i : Nat) (s : State) : State :=
  match s.fil i with
  | none => s
  | some f =>
    if f.running ∧ f.holding = none ∧ f.errClosed then
      match f.kind with
      | .pending => { s with fil := setAt s.fil i { f with listed := false } }
      | _ => { s with fil := setAt s.fil i { f with listed := false, running := false, subscribed := false } }
    else s

/-- `UninstallFilter` (api.go lines 551-564), and the loop that removes filters which were not polled
for five minutes (lines 102-121): the filter leaves the table, and a request to uninstall it is
started (subscription.go lines 33-51). -/
def remove (i : Nat) (s : State) : State :=
  match s.fil i with
  | none => s
  | some f =>
    if f.listed then
      { s with fil := setAt s.fil i { f with listed := false, asked := true, removed := true } }
    else s

/-- Some other filter of the kind is in the index (filter_system.go lines 247-254). -/
def inUse (s : State) (k : Kind) (i : Nat) : Bool :=
  (List.range s.next).any (fun j => decide (j ≠ i) && (s.fil j).any (fun g => g.indexed && decide (g.kind = k)))

/-- The `uninstall` case of the loop (filter_system.go lines 243-268). Closing a channel twice
panics. -/
def uninstall (i : Nat) (s : State) : State :=
  match s.fil i with
  | none => s
  | some f =>
    if f.asked = false then s
    else if f.errClosed then { s with crashed := true }
    else
      let s' := { s with fil := setAt s.fil i { f with asked := false, indexed := false, errClosed := true } }
      if inUse s f.kind i then s'
      else match s.chan f.kind with
        | none => s'
        | some c =>
          match s.pub c with
          | none => s'
          | some p =>
            if p.closed then { s' with crashed := true }
            else
              { s' with
                pub := setAt s.pub c { p with closed := true },
                topics := setKind s.topics f.kind false, chan := setKind s.chan f.kind none }

/-- `GetFilterChanges` (api.go lines 619-650): what it returns, or nothing if there is no such
filter. -/
def pollResult (i : Nat) (s : State) : Option (List Item) :=
  match s.fil i with
  | none => none
  | some f => if f.listed then some f.buf else none

def poll (i : Nat) (s : State) : State :=
  match s.fil i with
  | none => s
  | some f =>
    if f.listed then { s with fil := setAt s.fil i { f with buf := [], got := f.got ++ f.buf } } else s

/-- What the goroutines can do. -/
inductive Op
  | create (k : Kind) (c : Crit) (nodeOk : Bool)
  | emit (k : Kind) (b : Body)
  | send
  | drop
  | publish (c : Nat) (ready : List Nat)
  | pubEnd (c : Nat)
  | handle (i : Nat)
  | chEnd (i : Nat)
  | errEnd (i : Nat)
  | remove (i : Nat)
  | uninstall (i : Nat)
  | poll (i : Nat)
  deriving DecidableEq, Repr

def act (cap : Nat) (s : State) : Op → State
  | .create k c ok => create cap k c ok s
  | .emit k b => emit k b s
  | .send => send s
  | .drop => drop s
  | .publish c r => publish c r s
  | .pubEnd c => pubEnd c s
  | .handle i => handle i s
  | .chEnd i => chEnd i s
  | .errEnd i => errEnd i s
  | .remove i => remove i s
  | .uninstall i => uninstall i s
  | .poll i => poll i s

/-- A panic ends the process: nothing happens after it. -/
def step (cap : Nat) (s : State) (o : Op) : State := if s.crashed then s else act cap s o

/-- A schedule. -/
def run (cap : Nat) (ops : List Op) : State := ops.foldl (step cap) init

end Poll
