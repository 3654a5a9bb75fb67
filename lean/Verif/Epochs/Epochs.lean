/-!
# Epochs (`x/epochs`)

Times and durations are integers (nanoseconds).
-/
namespace Epochs

/-- `EpochInfo`, with a number for its identifier. -/
structure Info where
  id : Nat
  start : Int
  duration : Int
  epoch : Nat
  height : Int
  epochStart : Int
  counting : Bool
deriving DecidableEq, Repr

/-- `EpochInfo.Validate` (types/epoch_info.go 23-37); that the number is not negative is in the type. -/
def Info.validate (e : Info) : Bool := decide (e.duration ≠ 0) && decide (0 ≤ e.height)

/-- `StartInitialEpoch` (types/epoch_info.go 10-14). -/
def Info.startInitial (e : Info) : Info := { e with counting := true, epoch := 1, epochStart := e.start }

/-- `EndEpoch` (types/epoch_info.go 17-20). -/
def Info.endEpoch (e : Info) : Info := { e with epoch := e.epoch + 1, epochStart := e.epochStart + e.duration }

/-- The hooks that are called: `AfterEpochEnd` and `BeforeEpochStart` with identifier and number. -/
inductive Hook where
  | after (id epoch : Nat)
  | before (id epoch : Nat)
deriving DecidableEq, Repr

/-- A block: its time and height. -/
structure Block where
  time : Int
  height : Int
deriving DecidableEq, Repr

/-- `shouldInitialEpochStart` (keeper/abci.go 21). -/
def shouldStart (e : Info) (b : Block) : Bool := !e.counting && !decide (b.time < e.start)

/-- `shouldEpochEnd` (keeper/abci.go 23-24). -/
def shouldEnd (e : Info) (b : Block) : Bool :=
  decide (e.epochStart + e.duration < b.time) && !shouldStart e b && !decide (b.time < e.start)

/-- The body of the loop of `BeginBlocker` (keeper/abci.go 19-63). -/
def tick (e : Info) (b : Block) : Info × List Hook :=
  if shouldStart e b then
    ({ e.startInitial with height := b.height }, [.before e.id 1])
  else if shouldEnd e b then
    ({ e.endEpoch with height := b.height }, [.after e.id (e.epoch + 1), .before e.id (e.epoch + 1)])
  else (e, [])

/-- `BeginBlocker` (keeper/abci.go 14-65) over all stored epochs, in the order of the store. -/
def beginBlock (es : List Info) (b : Block) : List Info × List Hook :=
  (es.map (fun e => (tick e b).1), (es.map (fun e => (tick e b).2)).flatten)

/-- Blocks one after the other: the last state and all hooks. -/
def run (es : List Info) : List Block → List Info × List Hook
  | [] => (es, [])
  | b :: bs =>
    let r := beginBlock es b
    let s := run r.1 bs
    (s.1, r.2 ++ s.2)

/-- `InitGenesis` (genesis.go 14-26) for one epoch; `none` is the zero time. -/
def initGenesis (start : Option Int) (e : Info) (b : Block) : Info :=
  { e with start := start.getD b.time, height := b.height }

end Epochs
