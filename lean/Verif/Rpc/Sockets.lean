import Verif.Rpc.Logs

/-!
# WebSocket connections

Models the WebSocket server (/repo/helios-chain/rpc/websockets.go): how a request is read, answered
or passed on to the HTTP server, how the criteria of a subscription to logs are read, and
subscriptions as a system of goroutines on the event bus
(/repo/helios-chain/rpc/namespaces/ethereum/eth/filters/filter_system.go and
/repo/helios-chain/rpc/ethereum/pubsub/pubsub.go).

Simplifications: numbers in JSON are natural numbers (no signs, fractions or exponents), and an
object is the list of its fields in the order of the text. The identifiers of subscriptions, drawn at
random by `rpc.NewID`, are numbered. The node accepts all queries of a subscription or none. The
notifications for one event are written in one step.
-/

namespace Sock

open LogQuery (Log Criteria filterLogs)

abbrev Text := List UInt8

def text (s : String) : Text := s.toUTF8.data.toList

/-! ## JSON -/

mutual
/-- A JSON value. -/
inductive Json
  | null
  | bool (b : Bool)
  | num (n : Nat)
  | str (t : Text)
  | arr (es : Jsons)
  | obj (fs : Fields)
/-- The elements of an array. -/
inductive Jsons
  | nil
  | cons (j : Json) (js : Jsons)
/-- The fields of an object. -/
inductive Fields
  | nil
  | cons (name : Text) (value : Json) (rest : Fields)
end

/-- The elements as a list. -/
def Jsons.list : Jsons → List Json
  | .nil => []
  | .cons j js => j :: js.list

/-- `msg[name]` after `json.Unmarshal` into a map: of fields with the same name the last one counts. -/
def Fields.get : Fields → Text → Option Json
  | .nil, _ => none
  | .cons n v fs, x => (fs.get x).or (if n = x then some v else none)

/-- The nearest float64 of a natural number, ties to even. (Numbers beyond the range of float64 are an
error in the code; they are not treated here.) -/
def float (n : Nat) : Nat :=
  if n ≤ 9007199254740992 then n
  else
    let u := 2 ^ (n.log2 - 52)
    let q := n / u
    let r := n % u
    if 2 * r < u then q * u
    else if u < 2 * r then (q + 1) * u
    else if q % 2 = 0 then q * u
    else (q + 1) * u

/-- What the model takes from libraries: `common.HexToAddress`, `common.HexToHash`,
`strconv.ParseFloat`, and the number `encoding/json` prints for a float64 (the shortest decimal number
that reads as the same float64). -/
structure Env where
  toAddr : Text → Nat
  toHash : Text → Nat
  parseFloat : Text → Option Nat
  print : Nat → Nat

mutual
/-- `json.Unmarshal` into an `interface{}` and `WriteJSON` of it (websockets.go lines 324-351): all
numbers become float64. -/
def again (env : Env) : Json → Json
  | .null => .null
  | .bool b => .bool b
  | .num n => .num (env.print (float n))
  | .str t => .str t
  | .arr es => .arr (agains env es)
  | .obj fs => .obj (againf env fs)
def agains (env : Env) : Jsons → Jsons
  | .nil => .nil
  | .cons j js => .cons (again env j) (agains env js)
def againf (env : Env) : Fields → Fields
  | .nil => .nil
  | .cons n v fs => .cons n (again env v) (againf env fs)
end

/-! ## Reading a request -/

/-- What a subscription asks for. -/
inductive Want
  | heads
  | logs (c : Criteria)
  | pending
  deriving DecidableEq, Repr

/-- What the read loop does with a request. `refuse` is an error answer, which carries no id
(websockets.go lines 141-152). -/
inductive Act
  | forward
  | refuse
  | subscribe (id : Nat) (w : Want)
  | unsubscribe (id : Nat) (sub : Text)
  deriving DecidableEq, Repr

/-- A list of strings (websockets.go lines 505-517, 556-574). -/
def strings : Jsons → Option (List Text)
  | .nil => some []
  | .cons (.str t) js => (strings js).map (t :: ·)
  | .cons _ _ => none

/-- The addresses (websockets.go lines 492-518). `params["address"] != nil` fails when there is no such
field and when it is null. (The test of `ok` in line 501 is of the `ok` of line 485, which is true; for
an array the addresses are set again.) -/
def readAddresses (env : Env) : Option Json → Option (List Nat)
  | none => some []
  | some .null => some []
  | some (.str t) => some [env.toAddr t]
  | some (.arr es) => (strings es).map (·.map env.toAddr)
  | some _ => none

/-- The topics at one position (websockets.go lines 542-577). -/
def readTopic (env : Env) : Json → Option (List Nat)
  | .null => some []
  | .str t => some [env.toHash t]
  | .arr es => (strings es).map (·.map env.toHash)
  | _ => none

def readTopicList (env : Env) : Jsons → Option (List (List Nat))
  | .nil => some []
  | .cons j js =>
    match readTopic env j with
    | none => none
    | some t => (readTopicList env js).map (t :: ·)

/-- The topics (websockets.go lines 520-578). -/
def readTopics (env : Env) : Option Json → Option (List (List Nat))
  | none => some []
  | some .null => some []
  | some (.arr es) => readTopicList env es
  | some _ => none

/-- The criteria of `subscribeLogs` (websockets.go lines 481-579). -/
def readCriteria (env : Env) : Option Json → Option Criteria
  | none => some ⟨[], []⟩
  | some .null => some ⟨[], []⟩
  | some (.obj fs) =>
    match readAddresses env (fs.get (text "address")) with
    | none => none
    | some as => (readTopics env (fs.get (text "topics"))).map (⟨as, ·⟩)
  | some _ => none

/-- `subscribe` (websockets.go lines 372-394), up to the subscription itself. -/
def readWant (env : Env) : List Json → Option Want
  | .str t :: rest =>
    if t = text "newHeads" then some .heads
    else if t = text "logs" then (readCriteria env rest.head?).map .logs
    else if t = text "newPendingTransactions" then some .pending
    else none
  | _ => none

/-- `getParamsAndCheckValid` (websockets.go lines 307-320). -/
def readParams (fs : Fields) : Option (List Json) :=
  match fs.get (text "params") with
  | some (.arr (.cons j js)) => some (j :: js.list)
  | _ => none

/-- The id of a request (websockets.go lines 228-243). -/
def readId (env : Env) (fs : Fields) : Option Nat :=
  match fs.get (text "id") with
  | some (.num n) => some (float n)
  | some (.str t) => env.parseFloat t
  | _ => none

/-- The read loop, for one message (websockets.go lines 204-304). `null` is read as an empty map. -/
def readRequest (env : Env) : Json → Act
  | .arr _ => .forward
  | .null => .forward
  | .obj fs =>
    match fs.get (text "method") with
    | some (.str m) =>
      match readId env fs with
      | none => .refuse
      | some id =>
        if m = text "eth_subscribe" then
          match readParams fs with
          | none => .refuse
          | some ps =>
            match readWant env ps with
            | none => .refuse
            | some w => .subscribe id w
        else if m = text "eth_unsubscribe" then
          match readParams fs with
          | some (.str t :: _) => .unsubscribe id t
          | _ => .refuse
        else .forward
    | _ => .forward
  | _ => .refuse

/-- The answer to a subscription (websockets.go lines 45-49, 260-264, 288-292): the `id` is a float64. `result`
is the identifier of the subscription, or whether there was one to cancel. -/
def answer (env : Env) (id : Nat) (result : Json) : Json :=
  .obj (.cons (text "jsonrpc") (.str (text "2.0"))
    (.cons (text "id") (.num (env.print id)) (.cons (text "result") result .nil)))

/-! ## Headers -/

/-- A block: height, hash of the block before, time, state root, base fee, bloom filter, the hash of
its data (nothing when the header has none), whether it has Ethereum transactions, and the logs of its
scheduled calls (nothing when the backend gives an error). -/
structure Block where
  height : Nat
  parent : Nat
  time : Nat
  stateRoot : Nat
  baseFee : Nat
  bloom : Nat
  dataHash : Option Nat
  hasTxs : Bool
  cron : Option (List Log)
  deriving DecidableEq, Repr

/-- The header in a notification, as far as modelled. -/
structure Head where
  number : Nat
  parent : Nat
  time : Nat
  stateRoot : Nat
  baseFee : Nat
  bloom : Nat
  txRoot : Nat
  deriving DecidableEq, Repr

/-- `EmptyRootHash` of go-ethereum. -/
def emptyRoot : Nat := 0x56e81f171bcc55a6ff8345e692c0f86e5b48e01b996cadc001622fb5e363b421

/-- `params.InitialBaseFee` of go-ethereum, which the code uses for all blocks (websockets.go lines
402-403). -/
def initialBaseFee : Nat := 1000000000

/-- `EthHeaderFromTendermint(header, Bloom{}, baseFee)` (websockets.go line 421, rpc/types/utils.go lines
71-96). -/
def announce (b : Block) : Head where
  number := b.height
  parent := b.parent
  time := b.time
  stateRoot := b.stateRoot
  baseFee := initialBaseFee
  bloom := 0
  txRoot := match b.dataHash with
    | none => 0
    | some _ => emptyRoot

/-! ## Subscriptions -/

/-- The content of an event of the node: a header, the logs of the responses to the messages of an
Ethereum transaction (nothing if they cannot be decoded), or the hashes of the Ethereum messages of a
transaction (none if it is not an Ethereum transaction). -/
inductive Body
  | header (b : Block)
  | txLogs (responses : Option (List (List Log)))
  | txHashes (hashes : List Nat)
  deriving DecidableEq, Repr

/-- An event: its place in the stream, and its content. -/
structure Ev where
  no : Nat
  body : Body
  deriving DecidableEq, Repr

/-- What a notification carries. -/
inductive Item
  | head (h : Head)
  | log (l : Log)
  | hash (h : Nat)
  deriving DecidableEq, Repr

/-- What a goroutine listens for. A subscription to logs has two goroutines, one for the logs of
transactions and one for those of scheduled calls (websockets.go lines 581-732). -/
inductive Job
  | heads
  | txLogs (c : Criteria)
  | cronLogs (c : Criteria)
  | pending
  deriving DecidableEq, Repr

/-- The event is of the topic the goroutine subscribed to (filter_system.go lines 30-39, 181-222;
websockets.go lines 397, 581, 587, 738). -/
def Job.hears : Job → Body → Bool
  | .heads, .header _ => true
  | .txLogs _, .txLogs _ => true
  | .cronLogs _, .header _ => true
  | .pending, .txHashes _ => true
  | _, _ => false

/-- What the goroutine makes of an event; nothing if it stops (websockets.go lines 410-433, 599-640,
667-710, 748-782). `DecodeTxResponse` decodes the response to the first message only
(x/evm/types/utils.go lines 33-49). -/
def Job.items : Job → Body → Option (List Item)
  | .heads, .header b => some [.head (announce b)]
  | .txLogs _, .txLogs none => none
  | .txLogs _, .txLogs (some []) => some []
  | .txLogs c, .txLogs (some (r :: _)) => some ((filterLogs none none c r).map .log)
  | .cronLogs c, .header b =>
    match b.cron with
    | none => some []
    | some ls => some ((filterLogs none none c ls).map .log)
  | .pending, .txHashes hs => some (hs.map .hash)
  | _, _ => some []

/-- A goroutine of a subscription. `onBus`: the bus publishes to its channel. `running`, `holding`: the
goroutine, and the event it received and has yet to handle. Kept to state properties and used nowhere:
`since` and `till`, the number of events the node had reported when it was put on the bus and taken
from it. -/
structure Gor where
  conn : Nat
  sub : Nat
  job : Job
  onBus : Bool
  running : Bool
  holding : Option Ev
  since : Nat
  till : Option Nat
  deriving DecidableEq, Repr

/-- What is written to a connection: the answer to a subscription, the answer to a cancellation, a
notification. A notification names the subscription; the goroutine that wrote it is kept to state
properties. -/
inductive Out
  | subscribed (sub : Nat)
  | cancelled (sub : Nat) (found : Bool)
  | note (sub : Nat) (gor : Nat) (i : Item)
  deriving DecidableEq, Repr

/-- A connection: whether it is up, whether its read loop runs, its table of subscriptions, the answer
the read loop is about to write, and all that was written. -/
structure Conn where
  up : Bool
  reading : Bool
  subs : List Nat
  owed : Option Out
  out : List Out
  deriving DecidableEq, Repr

/-- All connections and goroutines, and what the node has reported so far. -/
structure State where
  conn : Nat → Option Conn
  nextConn : Nat
  gor : Nat → Option Gor
  nextGor : Nat
  nextSub : Nat
  log : List Ev

def init : State where
  conn := fun _ => none
  nextConn := 0
  gor := fun _ => none
  nextGor := 0
  nextSub := 0
  log := []

def setAt (m : Nat → Option α) (i : Nat) (a : α) : Nat → Option α := fun j => if j = i then some a else m j

/-- `ServeHTTP` (websockets.go lines 122-139, 179-188). -/
def connect (s : State) : State :=
  { s with conn := setAt s.conn s.nextConn ⟨true, true, [], none, []⟩, nextConn := s.nextConn + 1 }

/-- A goroutine that was just started. -/
def newGor (s : State) (c : Nat) (j : Job) : Gor := ⟨c, s.nextSub, j, true, true, none, s.log.length, none⟩

/-- The goroutines of a subscription (websockets.go lines 396-462, 581-735, 737-802). -/
def start (s : State) (c : Nat) : Want → State
  | .heads => { s with gor := setAt s.gor s.nextGor (newGor s c .heads), nextGor := s.nextGor + 1 }
  | .logs cr =>
    { s with
      gor := setAt (setAt s.gor s.nextGor (newGor s c (.txLogs cr))) (s.nextGor + 1) (newGor s c (.cronLogs cr)),
      nextGor := s.nextGor + 2 }
  | .pending => { s with gor := setAt s.gor s.nextGor (newGor s c .pending), nextGor := s.nextGor + 1 }

/-- `eth_subscribe` (websockets.go lines 246-258), up to the answer. `nodeOk` is whether the node accepts
the query. -/
def subscribe (c : Nat) (w : Want) (nodeOk : Bool) (s : State) : State :=
  match s.conn c with
  | none => s
  | some k =>
    if k.reading ∧ k.owed = none ∧ nodeOk then
      let t := start s c w
      { t with
        conn := setAt s.conn c { k with subs := s.nextSub :: k.subs, owed := some (.subscribed s.nextSub) },
        nextSub := s.nextSub + 1 }
    else s

/-- One goroutine, when the subscriptions in `is` are taken from the bus (pubsub.go lines 94-98). The
goroutine goes on. -/
def unhook (n : Nat) (is : List Nat) (g : Gor) : Gor :=
  if g.onBus ∧ g.sub ∈ is then { g with onBus := false, till := some n } else g

/-- `eth_unsubscribe` (websockets.go lines 269-286), up to the answer: only the table of this connection
is looked at. -/
def unsubscribe (c : Nat) (i : Nat) (s : State) : State :=
  match s.conn c with
  | none => s
  | some k =>
    if k.reading ∧ k.owed = none then
      if i ∈ k.subs then
        { s with
          conn := setAt s.conn c { k with subs := k.subs.filter (· ≠ i), owed := some (.cancelled i true) },
          gor := fun j => (s.gor j).map (unhook s.log.length [i]) }
      else { s with conn := setAt s.conn c { k with owed := some (.cancelled i false) } }
    else s

/-- The read loop writes its answer (websockets.go lines 260-268, 288-296). -/
def reply (c : Nat) (s : State) : State :=
  match s.conn c with
  | none => s
  | some k =>
    match k.owed with
    | none => s
    | some o =>
      { s with conn := setAt s.conn c { k with owed := none, out := if k.up then k.out ++ [o] else k.out } }

/-- One subscriber of `publishAllSubscribers` (pubsub.go lines 136-142): it gets the event if its goroutine
waits at that moment, else the event is lost to it. -/
def offer (e : Ev) (ready : Bool) (g : Gor) : Gor :=
  if g.onBus ∧ g.job.hears e.body ∧ g.running ∧ g.holding = none ∧ ready then { g with holding := some e } else g

/-- The node reports an event and the bus publishes it (filter_system.go lines 271-317, pubsub.go lines
131-143); `ready` are the goroutines that wait. The reading loop and the goroutine of the topic, which
only pass the event on or drop it, are left out: a dropped event is one nobody is ready for. -/
def publish (b : Body) (ready : List Nat) (s : State) : State :=
  let e : Ev := ⟨s.log.length, b⟩
  { s with
    log := s.log ++ [e],
    gor := fun j => (s.gor j).map (offer e (ready.contains j)) }

/-- A goroutine handles the event it received: it writes the notifications, or stops (websockets.go lines
410-442, 599-640, 667-710, 748-782). Nothing can be written to a connection that is down. -/
def handle (j : Nat) (s : State) : State :=
  match s.gor j with
  | none => s
  | some g =>
    match g.holding with
    | none => s
    | some e =>
      match g.job.items e.body with
      | none => { s with gor := setAt s.gor j { g with holding := none, running := false } }
      | some is =>
        match s.conn g.conn with
        | none => s
        | some k =>
          { s with
            gor := setAt s.gor j { g with holding := none },
            conn := setAt s.conn g.conn
              { k with out := if k.up then k.out ++ is.map (.note g.sub j) else k.out } }

/-- The connection breaks, or the peer closes it. -/
def down (c : Nat) (s : State) : State :=
  match s.conn c with
  | none => s
  | some k => { s with conn := setAt s.conn c { k with up := false } }

/-- The read loop finds the connection down and ends: all its subscriptions are cancelled (websockets.go
lines 182-202). -/
def readEnd (c : Nat) (s : State) : State :=
  match s.conn c with
  | none => s
  | some k =>
    if k.up = false ∧ k.reading ∧ k.owed = none then
      { s with
        conn := setAt s.conn c { k with reading := false, subs := [] },
        gor := fun j => (s.gor j).map (unhook s.log.length k.subs) }
    else s

/-- What can happen. -/
inductive Op
  | connect
  | subscribe (c : Nat) (w : Want) (nodeOk : Bool)
  | unsubscribe (c : Nat) (i : Nat)
  | reply (c : Nat)
  | publish (b : Body) (ready : List Nat)
  | handle (j : Nat)
  | down (c : Nat)
  | readEnd (c : Nat)
  deriving DecidableEq, Repr

def step (s : State) : Op → State
  | .connect => connect s
  | .subscribe c w ok => subscribe c w ok s
  | .unsubscribe c i => unsubscribe c i s
  | .reply c => reply c s
  | .publish b r => publish b r s
  | .handle j => handle j s
  | .down c => down c s
  | .readEnd c => readEnd c s

def run (ops : List Op) : State := ops.foldl step init

end Sock
