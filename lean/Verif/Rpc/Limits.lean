import Verif.Lib.KV
/-!
# Limits on requests to the JSON-RPC server

Every request to the HTTP server passes a limit on connections, then a limit on requests of a client within a window of time; calls then pass
a limit for their method and one on time spent on the client (helios-chain/server/middleware, server/json_rpc.go 254-545). Each limiter is guarded by a lock,
so its checks happen at a stroke, but requests run side by side: a schedule is a list of steps, each of which takes one request one check further.

Time is a number of ticks. Texts are lists of bytes. The average time of a method, computed with floats, is given from outside with the check that uses
it. Left out: the check of the length of the request's id, websockets, the monitor that reads the tables every minute, and the routes that show them.
-/
namespace Rpc.Limits

abbrev Text := List UInt8

/-- What a request asks for: one call, several in one body, or emptying the tables at the route /reset. -/
inductive Ask where
  | call (method : Text)
  | batch (methods : List Text)
  | reset
deriving DecidableEq

/-- A request: two headers (empty if missing), the address of the connection, whether the content type is exactly "application/json", and what is asked. -/
structure Request where
  forwarded : Text
  realIp : Text
  remote : Text
  plain : Bool
  ask : Ask
deriving DecidableEq

/-- "unknown" -/
def unknown : Text := [117, 110, 107, 110, 111, 119, 110]

/-- "127.0.0.1" -/
def loopback : Text := [49, 50, 55, 46, 48, 46, 48, 46, 49]

/-- "192.168.1.1" -/
def gateway : Text := [49, 57, 50, 46, 49, 54, 56, 46, 49, 46, 49]

/-- GetClientIP (server/middleware/middleware.go 178-201): of the address of the connection only a colon at the very end is cut off. -/
def clientIP (r : Request) : Text :=
  if r.forwarded ≠ [] then r.forwarded
  else if r.realIp ≠ [] then r.realIp
  else if r.remote = [] then unknown
  else if r.remote.getLast? = some 58 then r.remote.dropLast
  else r.remote

/-- extractMethodFromRequestBody (server/json_rpc.go 36-65): a list of calls, or another content type, has the empty text for its method. -/
def methodOf (r : Request) : Text :=
  if r.plain then
    match r.ask with
    | .call m => m
    | _ => []
  else []

/-- strings.Contains. -/
def contains (t u : Text) : Bool :=
  match t with
  | [] => u.isPrefixOf []
  | a :: t => u.isPrefixOf (a :: t) || contains t u

/-- The times kept for each client. -/
abbrev Table := List (Text × List Nat)

/-- The times of a client within the window that ends now (rate_limiter.go 36-49). -/
def recent (window now : Nat) (m : Table) (k : Text) : List Nat :=
  ((KV.get m k).getD []).filter (fun t => decide (now < t + window))

/-- RateLimiter.Allow (server/middleware/rate_limiter.go 28-61). -/
def allow (limit window now : Nat) (m : Table) (k : Text) : Bool × Table :=
  if (recent window now m k).length ≥ limit then (false, m)
  else (true, KV.set m k (recent window now m k ++ [now]))

structure Conf where
  limit : Nat
  window : Nat
  maxConn : Nat
  /-- The limit of a method, if it has one of its own. -/
  own : List (Text × Nat)
  compLimit : Nat
  compWindow : Nat
  /-- The time of a method without an average, one millisecond (compute_time_tracker.go 35). -/
  dflt : Nat

/-- How far a request has come. -/
inductive Phase where
  | connected
  | rated
  | inserting
  | counted
  | working
deriving DecidableEq

structure S where
  conns : List Text
  rate : Table
  /-- The limiters of methods, with their limits. -/
  methods : List (Text × (Nat × Table))
  comp : List (Text × List (Nat × Nat))
  reqs : List (Nat × (Request × Phase))
  crashed : Bool
deriving DecidableEq

/-- The server at its start (json_rpc.go 257-284). -/
def init (c : Conf) : S :=
  { conns := [], rate := [], methods := c.own.map (fun x => (x.1, (x.2, []))), comp := [], reqs := [], crashed := false }

/-- What happens to requests. -/
inductive Event where
  /-- The limiter of requests let through a request of this client. -/
  | passed (now : Nat) (k : Text)
  /-- The limiter of methods let through a request of this client. -/
  | counted (now : Nat) (m k : Text)
  /-- The server works on a request. -/
  | started (now : Nat) (id : Nat) (r : Request)
  /-- The server worked so long for this client, and is done. -/
  | done (now dur : Nat) (k : Text)
  | refused (id : Nat)
  /-- The tables were emptied. -/
  | emptied
deriving DecidableEq

inductive Op where
  | arrive (id : Nat) (r : Request)
  /-- The next check of a request, with the time and the average time of its method. -/
  | advance (id now avg : Nat)
  /-- The server is done, after so long. -/
  | finish (id now dur : Nat)
  /-- The server takes too long, and the request is answered by an error. -/
  | timeout (id : Nat)

/-- ConnectionLimiter (server/middleware/connection_limiter.go 23-42): a set of clients. -/
def addConn (l : List Text) (k : Text) : List Text := if k ∈ l then l else k :: l

def removeConn (l : List Text) (k : Text) : List Text := l.filter (fun x => decide (x ≠ k))

/-- The request is over, and its client's connection is removed (middleware.go 50-51). -/
def close (s : S) (id : Nat) (r : Request) : S := { s with conns := removeConn s.conns (clientIP r), reqs := KV.del s.reqs id }

/-- ConnectionLimitMiddleware (middleware.go 37-55), which comes first (93-100). -/
def arrive (c : Conf) (s : S) (id : Nat) (r : Request) : S × List Event :=
  if (KV.get s.reqs id).isSome then (s, [])
  else if s.conns.length ≥ c.maxConn then (s, [.refused id])
  else ({ s with conns := addConn s.conns (clientIP r), reqs := KV.set s.reqs id (r, .connected) }, [])

/-- Emptying the tables (server/routes/rpc_routes.go 190-216; rate_limiter.go 111-119, method_rate_limiter.go 79-86, compute_time_tracker.go 173-186). Limiters
of methods stay, with nothing in them. -/
def reset (s : S) : S := { s with rate := [], methods := s.methods.map (fun x => (x.1, (x.2.1, []))), comp := [] }

/-- The time spent on a client within the window (compute_time_tracker.go 57-68). -/
def spent (window now : Nat) (l : List (Nat × Nat)) : Nat := ((l.filter (fun e => decide (now < e.1 + window))).map (·.2)).sum

/-- PredictComputeTime (compute_time_tracker.go 40-80). -/
def predict (c : Conf) (s : S) (now avg : Nat) (k : Text) : Bool :=
  if contains k gateway || contains k loopback then true
  else
    match KV.get s.comp k with
    | none => true
    | some l => decide (spent c.compWindow now l + (if avg = 0 then c.dflt else avg) ≤ c.compLimit)

/-- The next check of a request. Looking up the limiter of a method while another request inserts one is fatal: MethodRateLimiter.Allow
writes to the map under a lock for reading (method_rate_limiter.go 33-47), and Go ends the process on concurrent reading and writing of a map. -/
def advance (c : Conf) (s : S) (id now avg : Nat) : S × List Event :=
  match KV.get s.reqs id with
  | none => (s, [])
  | some (r, .connected) =>
    -- RateLimitMiddleware (middleware.go 13-34)
    match allow c.limit c.window now s.rate (clientIP r) with
    | (false, _) => (close s id r, [.refused id])
    | (true, m) => ({ s with rate := m, reqs := KV.set s.reqs id (r, .rated) }, [.passed now (clientIP r)])
  | some (r, .rated) =>
    if r.ask = .reset then
      -- the lock for writing waits for all readers
      if s.reqs.any (fun x => decide (x.2.2 = .inserting)) then (s, []) else (close (reset s) id r, [.emptied])
    else if s.reqs.any (fun x => decide (x.2.2 = .inserting)) then ({ s with crashed := true }, [])
    else if (KV.get s.methods (methodOf r)).isNone then ({ s with reqs := KV.set s.reqs id (r, .inserting) }, [])
    else count s r
  | some (r, .inserting) =>
    count { s with methods := KV.set s.methods (methodOf r) (c.limit, []) } r
  | some (r, .counted) =>
    -- json_rpc.go 390-410
    if predict c s now avg (clientIP r) then ({ s with reqs := KV.set s.reqs id (r, .working) }, [.started now id r])
    else (close s id r, [.refused id])
  | some (_, .working) => (s, [])
where
  /-- The limiter of the method decides (json_rpc.go 367-388). -/
  count (s : S) (r : Request) : S × List Event :=
    match KV.get s.methods (methodOf r) with
    | none => (s, [])
    | some (lim, t) =>
      match allow lim c.window now t (clientIP r) with
      | (false, _) => (close s id r, [.refused id])
      | (true, t') => ({ s with methods := KV.set s.methods (methodOf r) (lim, t'), reqs := KV.set s.reqs id (r, .counted) },
          [.counted now (methodOf r) (clientIP r)])

/-- The end of a call (json_rpc.go 463-477): its time is added to what was spent on the client (AddComputeTime, compute_time_tracker.go 83-120; nothing
is ever taken out). -/
def finish (s : S) (id now dur : Nat) : S × List Event :=
  match KV.get s.reqs id with
  | some (r, .working) =>
    (close { s with comp := KV.set s.comp (clientIP r) ((KV.get s.comp (clientIP r)).getD [] ++ [(now, dur)]) } id r,
      [.done now dur (clientIP r)])
  | _ => (s, [])

/-- A call that takes too long (json_rpc.go 487-520): nothing is added. -/
def timeout (s : S) (id : Nat) : S × List Event :=
  match KV.get s.reqs id with
  | some (r, .working) => (close s id r, [])
  | _ => (s, [])

def step (c : Conf) (s : S) (op : Op) : S × List Event :=
  if s.crashed then (s, [])
  else
    match op with
    | .arrive id r => arrive c s id r
    | .advance id now avg => advance c s id now avg
    | .finish id now dur => finish s id now dur
    | .timeout id => timeout s id

/-- A schedule: the last state and everything that happened, the latest first. -/
def run (c : Conf) (ops : List Op) : S × List Event :=
  ops.foldl (fun x op => ((step c x.1 op).1, (step c x.1 op).2 ++ x.2)) (init c, [])

end Rpc.Limits
