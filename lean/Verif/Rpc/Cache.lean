import Verif.Hyperion.Claims
import Verif.Lib.KV
/-!
# The cache of answers

Models `helios-chain/rpc/cache/cache.go` and `helios-chain/rpc/namespaces/ethereum/eth/cached_api.go` 53-130, 612-646: answers of some methods are kept for a time that
depends on the method, at most a thousand of them, the one not used for longest going first.

A question is the text of method and arguments; the code takes its SHA-256, which is taken to be free of collisions. An answer is a number. Each
request looks into the cache and, if nothing is found, has the method work (between two steps of the schedule other requests go on) and
then keeps the answer. `golang-lru` and reflection are modelled by what they are for.
-/
namespace Rpc.Cache

abbrev Text := List UInt8

/-- What the method gives. -/
inductive Res where
  | fail
  | ok (v : Nat)
deriving DecidableEq

structure Conf where
  /-- How many answers are kept: 1000 (cached_api.go 36). -/
  cap : Nat
  /-- For how long the answer to a question is kept, if at all (cache.go 51-80). -/
  ttl : Text → Option Nat

structure S where
  /-- The last used first: question, answer, and when it expires. -/
  lru : List (Text × (Nat × Nat))
  /-- Requests that wait for the method: question and when they began. -/
  work : List (Nat × (Text × Nat))
  /-- Goroutines that clean up. -/
  routines : Nat
deriving DecidableEq

inductive Event where
  /-- Answered from the cache. -/
  | hit (id : Nat) (k : Text) (t v : Nat)
  /-- Answered by the method, which began at `b` and was done at `t`. -/
  | fetched (id : Nat) (k : Text) (b t : Nat) (r : Res)
deriving DecidableEq

inductive Op where
  | ask (id : Nat) (k : Text) (now : Nat)
  | back (id : Nat) (now : Nat) (r : Res)
  | clean (now : Nat)
  /-- The exported method StartCleanupCacheRoutine, called by the server at its start (server/json_rpc.go 312) and, like all exported methods of the
  registered service, by anybody under the name eth_startCleanupCacheRoutine (go-ethereum's rpc package, whose source is not in the repository). -/
  | routine

def init : S := { lru := [], work := [], routines := 0 }

/-- interceptMethodCall up to the call of the method (cached_api.go 54-77), with GetBlock (cache.go 141-157): what has expired is taken out. -/
def ask (c : Conf) (s : S) (id : Nat) (k : Text) (now : Nat) : S × List Event :=
  if (KV.get s.work id).isSome then (s, [])
  else
    match c.ttl k with
    | none => ({ s with work := KV.set s.work id (k, now) }, [])
    | some _ =>
      match KV.get s.lru k with
      | none => ({ s with work := KV.set s.work id (k, now) }, [])
      | some (v, expires) =>
        if now > expires then ({ s with lru := KV.del s.lru k, work := KV.set s.work id (k, now) }, [])
        else ({ s with lru := KV.set s.lru k (v, expires) }, [.hit id k now v])

/-- interceptMethodCall after the call (cached_api.go 78-90), with SetBlockWithTTL (cache.go 191-205): failures are not kept. -/
def back (c : Conf) (s : S) (id now : Nat) (r : Res) : S × List Event :=
  match KV.get s.work id with
  | none => (s, [])
  | some (k, b) =>
    match c.ttl k, r with
    | some d, .ok v => ({ s with lru := (KV.set s.lru k (v, now + d)).take c.cap, work := KV.del s.work id }, [.fetched id k b now r])
    | _, _ => ({ s with work := KV.del s.work id }, [.fetched id k b now r])

/-- Cleanup (cache.go 230-244). Going over all keys from the oldest leaves their order as it was. -/
def clean (s : S) (now : Nat) : S := { s with lru := s.lru.filter (fun e => decide (now ≤ e.2.2)) }

def step (c : Conf) (s : S) : Op → S × List Event
  | .ask id k now => ask c s id k now
  | .back id now r => back c s id now r
  | .clean now => (clean s now, [])
  | .routine => ({ s with routines := s.routines + 1 }, [])

/-- A schedule: the last state and everything that happened, the latest first. -/
def run (c : Conf) (ops : List Op) : S × List Event :=
  ops.foldl (fun x op => ((step c x.1 op).1, (step c x.1 op).2 ++ x.2)) (init, [])

/-! ## Questions as texts -/

/-- The arguments the cached methods have. -/
inductive Arg where
  /-- hexutil.Uint64: a text of hexadecimal digits. -/
  | hex (n : Nat)
  /-- uint64: a number. -/
  | num (n : Nat)
  /-- A text. -/
  | str (t : Text)
  /-- common.Address: its bytes in hexadecimal. -/
  | addr (a : List UInt8)
deriving DecidableEq

def hexDigit (n : Nat) : UInt8 := UInt8.ofNat (if n < 10 then 48 + n else 87 + n)

def hexAux : Nat → Nat → Text
  | 0, _ => []
  | fuel + 1, n => if n < 16 then [hexDigit n] else hexAux fuel (n / 16) ++ [hexDigit (n % 16)]

/-- strconv.FormatUint with base 16. -/
def hexText (n : Nat) : Text := hexAux (n + 1) n

def byteText (b : UInt8) : Text := [hexDigit (b.toNat / 16), hexDigit (b.toNat % 16)]

/-- A byte within a text of encoding/json. The characters U+2028 and U+2029 and invalid UTF-8, which it also changes, are left out. -/
def esc (b : UInt8) : Text :=
  if b = 34 then [92, 34]
  else if b = 92 then [92, 92]
  else if b = 8 then [92, 98]
  else if b = 12 then [92, 102]
  else if b = 10 then [92, 110]
  else if b = 13 then [92, 114]
  else if b = 9 then [92, 116]
  else if b < 32 ∨ b = 38 ∨ b = 60 ∨ b = 62 then [92, 117, 48, 48] ++ byteText b
  else [b]

def quoted (t : Text) : Text := 34 :: t ++ [34]

def argText : Arg → Text
  | .hex n => quoted (48 :: 120 :: hexText n)
  | .num n => Hyperion.dec n
  | .str t => quoted (t.flatMap esc)
  | .addr a => quoted (48 :: 120 :: a.flatMap byteText)

def joined : List Text → Text
  | [] => []
  | [t] => t
  | t :: l => t ++ 44 :: joined l

/-- generateKey (cache.go 116-132) before the hash: `{"method":…,"params":[…]}`. -/
def question (method : Text) (args : List Arg) : Text :=
  [123] ++ quoted "method".toUTF8.data.toList ++ [58] ++ quoted (method.flatMap esc) ++ [44] ++ quoted "params".toUTF8.data.toList ++ [58, 91] ++
    joined (args.map argText) ++ [93, 125]

end Rpc.Cache
