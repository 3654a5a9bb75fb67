import Verif.Rpc.SocketsLemmas
import Verif.Rpc.SocketsLemmas3

/-!
# WebSocket connections: the properties
-/

namespace Sock

open LogQuery (Log Criteria Matches)

/-! ## Requests and answers -/

/-- What libraries do, for the examples. -/
def sampleEnv : Env := ⟨fun _ => 7, fun t => t.length, fun t => if t = text "5" then some 5 else none, id⟩

/-- An answer passed on from the HTTP server is the same if no number in it exceeds 2^53. (In full: any
answer.) -/
theorem forwarded_same_partial (env : Env) (hp : ∀ n, n ≤ 2 ^ 53 → env.print n = n) (j : Json) (h : Small j) :
    again env j = j := again_small env hp j h

example : ∃ j, Small j ∧ (∀ n, n ≤ 2 ^ 53 → sampleEnv.print n = n) ∧ j ≠ .null :=
  ⟨.obj (.cons (text "id") (.num 3) .nil), ⟨by show 3 ≤ 2 ^ 53; omega, trivial⟩, fun _ _ => rfl, fun h => nomatch h⟩

/-- Not in general, however numbers are printed: two numbers come out the same. -/
theorem forwarded_changes (env : Env) :
    again env (.num 9007199254740992) = again env (.num 9007199254740993) ∧ ∃ n, again env (.num n) ≠ .num n := by
  have h : again env (.num 9007199254740992) = again env (.num 9007199254740993) := by
    unfold again
    rw [show float 9007199254740992 = float 9007199254740993 from by decide +kernel]
  refine ⟨h, ?_⟩
  by_cases h1 : again env (.num 9007199254740992) = .num 9007199254740992
  · refine ⟨9007199254740993, fun h2 => ?_⟩
    rw [h1, h2] at h
    injection h with h
    omega
  · exact ⟨_, h1⟩

/-- Of several fields of a request with the same name the last counts. -/
theorem last_field_counts (fs : Fields) (x : Text) (v : Json) :
    fs.get x = some v ↔ ∃ pre post, fs.list = pre ++ (x, v) :: post ∧ ∀ p ∈ post, p.1 ≠ x := get_last fs x v

example : (Fields.cons (text "a") (.num 1) (.cons (text "a") (.num 2) .nil)).get (text "a") = some (.num 2) := rfl

/-- Whether a request is a subscription, and to what. -/
theorem heads_subscription_iff (env : Env) (fs : Fields) (n : Nat) (hid : fs.get (text "id") = some (.num n))
    (hm : fs.get (text "method") = some (.str (text "eth_subscribe"))) :
    (∃ id, readRequest env (.obj fs) = .subscribe id .heads) ↔
      ∃ js, fs.get (text "params") = some (.arr (.cons (.str (text "newHeads")) js)) := by
  have hne : text "logs" ≠ text "newHeads" ∧ text "newPendingTransactions" ≠ text "newHeads" := by decide +kernel
  simp only [readRequest, hm, readId, hid, ↓reduceIte, readParams]
  constructor
  · rintro ⟨id, h⟩
    split at h
    · cases h
    · next ps hps =>
      split at h
      · cases h
      · next w hw =>
        injection h with _ hw'
        subst hw'
        split at hps
        · next j js hpar =>
          injection hps with hps
          subst hps
          unfold readWant at hw
          split at hw
          · next t rest heq =>
            injection heq with h1 h2
            split at hw
            · next ht =>
              rw [ht] at h1
              exact ⟨js, by rw [hpar, h1]⟩
            · split at hw
              · obtain ⟨c, _, hc⟩ := Option.map_eq_some_iff.1 hw
                cases hc
              · split at hw
                · injection hw with hw
                  cases hw
                · cases hw
          · cases hw
        · cases hps
  · rintro ⟨js, h⟩
    rw [h]
    exact ⟨float n, by simp only [readWant, ↓reduceIte]⟩

def headsRequest : Fields :=
  .cons (text "id") (.num 1) (.cons (text "method") (.str (text "eth_subscribe"))
    (.cons (text "params") (.arr (.cons (.str (text "newHeads")) .nil)) .nil))

example : headsRequest.get (text "id") = some (.num 1) ∧
    headsRequest.get (text "method") = some (.str (text "eth_subscribe")) ∧
    headsRequest.get (text "params") = some (.arr (.cons (.str (text "newHeads")) .nil)) := by
  refine ⟨?_, ?_, ?_⟩ <;> rfl

/-- A subscription to logs is accepted if and only if its criteria have the right shape, and then the logs
that match are those the criteria ask for. -/
theorem logs_subscription (env : Env) (fs : Fields) (n : Nat) (js : Jsons)
    (hid : fs.get (text "id") = some (.num n))
    (hm : fs.get (text "method") = some (.str (text "eth_subscribe")))
    (hp : fs.get (text "params") = some (.arr (.cons (.str (text "logs")) js))) :
    ((∃ id w, readRequest env (.obj fs) = .subscribe id w) ↔ GoodCriteria js.list.head?) ∧
    ∀ id w, readRequest env (.obj fs) = .subscribe id w →
      ∃ c, w = .logs c ∧ ∀ l : Log, Matches c l ↔ LogWanted env js.list.head? l := by
  have hne : text "logs" ≠ text "newHeads" := by decide +kernel
  have key : readRequest env (.obj fs) =
      match (readCriteria env js.list.head?).map Want.logs with
      | none => .refuse
      | some w => .subscribe (float n) w := by
    simp only [readRequest, hm, readId, hid, ↓reduceIte, readParams, hp, readWant, if_neg hne]
    cases (readCriteria env js.list.head?).map Want.logs <;> rfl
  rw [key]
  refine ⟨?_, ?_⟩
  · rw [← criteria_iff env]
    cases readCriteria env js.list.head? with
    | none => exact ⟨(fun ⟨_, _, h⟩ => nomatch h), (fun ⟨_, h⟩ => nomatch h)⟩
    | some c => exact ⟨fun _ => ⟨c, rfl⟩, fun _ => ⟨_, _, rfl⟩⟩
  · intro id w h
    cases hc : readCriteria env js.list.head? with
    | none => rw [hc] at h; cases h
    | some c =>
      rw [hc] at h
      injection h with _ h
      exact ⟨c, h.symm, fun l => criteria_read hc l⟩

def logsRequest : Fields :=
  .cons (text "id") (.num 1) (.cons (text "method") (.str (text "eth_subscribe"))
    (.cons (text "params") (.arr (.cons (.str (text "logs")) (.cons (.obj (.cons (text "address") (.str (text "0x07"))
      (.cons (text "topics") (.arr (.cons .null (.cons (.arr (.cons (.str (text "ab")) .nil)) .nil))) .nil))) .nil))) .nil))

example : logsRequest.get (text "id") = some (.num 1) ∧
    logsRequest.get (text "method") = some (.str (text "eth_subscribe")) ∧
    (∃ js, logsRequest.get (text "params") = some (.arr (.cons (.str (text "logs")) js)) ∧ js.list.length = 1) ∧
    readRequest sampleEnv (.obj logsRequest) = .subscribe 1 (.logs ⟨[7], [[], [2]]⟩) := by
  refine ⟨rfl, rfl, ⟨_, rfl, rfl⟩, ?_⟩
  decide +kernel

/-- The range of blocks in the criteria is not looked at: criteria that agree in address and topics are
the same. -/
theorem block_range_ignored (env : Env) (fs fs' : Fields) (ha : fs.get (text "address") = fs'.get (text "address"))
    (ht : fs.get (text "topics") = fs'.get (text "topics")) (l : Log) :
    LogWanted env (some (.obj fs)) l ↔ LogWanted env (some (.obj fs')) l := by
  simp only [LogWanted, Unset, reduceCtorEq, Option.some.injEq, Json.obj.injEq, exists_eq_left', ha, ht]

/-- The answer to a subscription or cancellation carries the id of the request if that is a number up to
2^53. (In full: the id of the request.) -/
theorem own_id_partial (env : Env) (hp : ∀ n, n ≤ 2 ^ 53 → env.print n = n) (fs : Fields) (n : Nat) (hn : n ≤ 2 ^ 53)
    (hid : fs.get (text "id") = some (.num n)) (id : Nat)
    (h : (∃ w, readRequest env (.obj fs) = .subscribe id w) ∨ ∃ t, readRequest env (.obj fs) = .unsubscribe id t)
    (r : Json) : ∃ as, answer env id r = .obj as ∧ as.get (text "id") = some (.num n) ∧ as.get (text "result") = some r := by
  have hi : id = n := by
    have : readId env fs = some n := by
      unfold readId
      rw [hid]
      dsimp only
      rw [float_small hn]
    simp only [readRequest] at h
    split at h
    · rw [this] at h
      dsimp only at h
      rcases h with ⟨w, h⟩ | ⟨t, h⟩
      · split at h
        · split at h
          · cases h
          · split at h
            · cases h
            · injection h with h _
              exact h.symm
        · split at h
          · split at h <;> cases h
          · cases h
      · split at h
        · split at h
          · cases h
          · split at h <;> cases h
        · split at h
          · split at h
            · injection h with h _
              exact h.symm
            · cases h
          · cases h
    · rcases h with ⟨w, h⟩ | ⟨t, h⟩ <;> cases h
  have h1 : text "id" ≠ text "jsonrpc" ∧ text "result" ≠ text "id" ∧ text "result" ≠ text "jsonrpc" := by decide +kernel
  refine ⟨_, rfl, ?_, ?_⟩
  · simp only [Fields.get, ↓reduceIte, if_neg h1.2.1, Option.or_none, Option.none_or, Option.some_or, hi, hp n hn]
  · simp only [Fields.get, ↓reduceIte, Option.none_or, Option.some_or]

example : headsRequest.get (text "id") = some (.num 1) ∧ (1 ≤ 2 ^ 53) ∧
    readRequest sampleEnv (.obj headsRequest) = .subscribe 1 .heads := by
  refine ⟨rfl, by omega, ?_⟩
  decide +kernel

/-- A text as id is answered with a number, whatever the request: the client cannot find the answer by
its id. -/
theorem text_id_changed (env : Env) (fs : Fields) (t : Text) (hid : fs.get (text "id") = some (.str t)) (id : Nat)
    (r : Json) : ∃ as, answer env id r = .obj as ∧ as.get (text "id") ≠ fs.get (text "id") := by
  have h1 : text "result" ≠ text "id" := by decide +kernel
  refine ⟨_, rfl, ?_⟩
  rw [hid]
  simp only [Fields.get, ↓reduceIte, if_neg h1, Option.or_none, Option.none_or, Option.some_or]
  exact fun h => nomatch h

example : ∃ fs t, fs.get (text "id") = some (.str t) ∧ readRequest sampleEnv (.obj fs) = .subscribe 5 .heads :=
  ⟨.cons (text "id") (.str (text "5")) (.cons (text "method") (.str (text "eth_subscribe"))
    (.cons (text "params") (.arr (.cons (.str (text "newHeads")) .nil)) .nil)), text "5", rfl, by decide +kernel⟩

/-- Any other single request is passed on to the HTTP server if and only if its id is a number or a text
that reads as one; else it is refused, though the HTTP server would answer it. -/
theorem others_forwarded_iff (env : Env) (fs : Fields) (m : Text) (hm : fs.get (text "method") = some (.str m))
    (h1 : m ≠ text "eth_subscribe") (h2 : m ≠ text "eth_unsubscribe") :
    (readRequest env (.obj fs) = .forward ↔
      (∃ n, fs.get (text "id") = some (.num n)) ∨ ∃ t v, fs.get (text "id") = some (.str t) ∧ env.parseFloat t = some v) ∧
    (readRequest env (.obj fs) = .forward ∨ readRequest env (.obj fs) = .refuse) := by
  simp only [readRequest, hm, if_neg h1, if_neg h2]
  unfold readId
  cases fs.get (text "id") with
  | none => simp
  | some j =>
    cases j with
    | str t =>
      cases hf : env.parseFloat t <;> simp [hf]
    | _ => simp

example : ∃ fs m, fs.get (text "method") = some (.str m) ∧ m ≠ text "eth_subscribe" ∧ m ≠ text "eth_unsubscribe" ∧
    readRequest sampleEnv (.obj fs) = .refuse :=
  ⟨.cons (text "method") (.str (text "eth_chainId")) (.cons (text "id") (.str (text "abc")) .nil), text "eth_chainId",
    rfl, by decide +kernel⟩

/-- A list of requests is passed on as it is, even one with subscriptions in it. -/
theorem lists_forwarded (env : Env) (es : Jsons) : readRequest env (.arr es) = .forward := rfl

/-! ## Headers -/

/-- The header of a notification has the number, parent, time and state root of the block. (In full:
`AsQueried`, the header is as queried.) -/
theorem header_partial (b : Block) :
    (announce b).number = b.height ∧ (announce b).parent = b.parent ∧ (announce b).time = b.time ∧
    (announce b).stateRoot = b.stateRoot := ⟨rfl, rfl, rfl, rfl⟩

/-- The rest is right only for an empty block without logs whose base fee is that of the first block of
Ethereum. -/
theorem header_as_queried_iff (b : Block) :
    AsQueried b (announce b) ↔ b.baseFee = 1000000000 ∧ b.bloom = 0 ∧
      (if b.hasTxs then (b.dataHash = none ∨ b.dataHash = some 0x56e81f171bcc55a6ff8345e692c0f86e5b48e01b996cadc001622fb5e363b421)
       else b.dataHash ≠ none) := by
  unfold AsQueried announce initialBaseFee emptyRoot
  dsimp only
  cases b.hasTxs <;> cases b.dataHash <;> simp [eq_comm]

/-- Not so for a block with transactions, the hash of whose data is another. -/
theorem header_differs : ∃ b : Block, ¬ AsQueried b (announce b) :=
  ⟨⟨5, 1, 2, 3, 1000000000, 0, some 9, true, none⟩, fun h => by
    have := (header_as_queried_iff _).1 h
    simp at this⟩

/-! ## Notifications -/

/-- What each goroutine of a subscription wrote is right: it is what should be notified of for some of
the events the node reported while the subscription was in force, each once and in their order. -/
theorem notes_sound (ops : List Op) (j : Nat) (g : Gor) (hg : (run ops).gor j = some g) :
    ∃ k, (run ops).conn g.conn = some k ∧ ∃ es, Told g.job es (notesBy j k.out) ∧
      es.Pairwise (fun d e => d.no < e.no) ∧
      ∀ e ∈ es, (run ops).log[e.no]? = some e ∧ g.since ≤ e.no ∧ ∀ u, g.till = some u → e.no < u := by
  obtain ⟨k, hk⟩ := (inv_run ops).has j g hg
  obtain ⟨es, h1, h2, h3⟩ := ((inv_run ops).course j g k hg hk).told
  exact ⟨k, hk, es, h1, h2, fun e he => ⟨(h3 e he).1, (h3 e he).2.1, (h3 e he).2.2.1⟩⟩

/-- Every notification on a connection is by a goroutine of a subscription of that connection, and a
subscription, once named in an answer, is that connection's alone. -/
theorem notes_own (ops : List Op) (c : Nat) (k : Conn) (hk : (run ops).conn c = some k) :
    (∀ i j it, .note i j it ∈ k.out → ∃ g, (run ops).gor j = some g ∧ g.conn = c ∧ g.sub = i) ∧
    ∀ i, .subscribed i ∈ k.out → ∀ d l j it, (run ops).conn d = some l → .note i j it ∈ l.out → d = c := by
  refine ⟨fun i j it h => (inv_run ops).notes c k i j it hk h, fun i hi d l j it hl hn => ?_⟩
  obtain ⟨g, hg, h1, h2⟩ := (inv_run ops).notes d l i j it hl hn
  exact h1.symm.trans (((inv_run ops).answered c k i hk (.inl hi)).2 j g hg h2)

def sampleBlock (n : Nat) : Block := ⟨n, 1, 2, 3, 7, 0, none, false, some [⟨9, 7, [1], 0⟩]⟩

def sampleOps : List Op :=
  [.connect, .subscribe 0 .heads true, .reply 0, .publish (.header (sampleBlock 4)) [0], .handle 0]

example : ∃ g k, (run sampleOps).gor 0 = some g ∧ (run sampleOps).conn 0 = some k ∧
    k.out = [.subscribed 0, .note 0 0 (.head ⟨4, 1, 2, 3, 1000000000, 0, 0⟩)] := by
  refine ⟨_, _, rfl, rfl, ?_⟩
  decide +kernel

/-- A subscription made now only tells of what is reported from now on. -/
theorem from_now_on (ops more : List Op) (j : Nat) (g : Gor) (hg : (run (ops ++ more)).gor j = some g)
    (hs : (run ops).nextSub ≤ g.sub) :
    ∃ k, (run (ops ++ more)).conn g.conn = some k ∧ ∃ es, Told g.job es (notesBy j k.out) ∧
      ∀ e ∈ es, (run ops).log.length ≤ e.no := by
  obtain ⟨k, hk, es, h1, _, h3⟩ := notes_sound _ j g hg
  refine ⟨k, hk, es, h1, fun e he => ?_⟩
  rw [run_append] at hg
  exact Nat.le_trans (gor_since (inv_run ops) more hg hs) (h3 e he).2.1

example : ∃ g, (run ([.publish (.header (sampleBlock 3)) []] ++ sampleOps)).gor 0 = some g ∧
    (run [.publish (.header (sampleBlock 3)) []]).nextSub ≤ g.sub := ⟨_, rfl, by decide +kernel⟩

/-- The subscriptions that are cancelled, when the client cancels one of its own. -/
theorem cancel_stops (ops more : List Op) (c i : Nat) (k : Conn) (hk : (run ops).conn c = some k)
    (hr : k.reading = true) (ho : k.owed = none) (hi : i ∈ k.subs) :
    (∃ k', (run (ops ++ [.unsubscribe c i])).conn c = some k' ∧ k'.owed = some (.cancelled i true) ∧ i ∉ k'.subs) ∧
    ∀ j g, (run (ops ++ .unsubscribe c i :: more)).gor j = some g → g.sub = i →
      ∃ l, (run (ops ++ .unsubscribe c i :: more)).conn c = some l ∧ ∃ es, Told g.job es (notesBy j l.out) ∧
        ∀ e ∈ es, e.no < (run ops).log.length := by
  have hst : step (run ops) (.unsubscribe c i) =
      { run ops with
        conn := setAt (run ops).conn c { k with subs := k.subs.filter (· ≠ i), owed := some (.cancelled i true) },
        gor := fun j => ((run ops).gor j).map (unhook (run ops).log.length [i]) } := by
    show unsubscribe c i (run ops) = _
    unfold unsubscribe
    rw [hk]
    dsimp only
    rw [if_pos ⟨hr, ho⟩, if_pos hi]
  refine ⟨?_, ?_⟩
  · rw [run_snoc, hst]
    refine ⟨_, setAt_eq, rfl, ?_⟩
    simp [List.mem_filter]
  · intro j g hg hs
    obtain ⟨l, hl, es, h1, _, h3⟩ := notes_sound _ j g hg
    have hlt := (((inv_run ops).own c k i hk hi).1)
    have hg' := hg
    rw [run_append] at hg'
    obtain ⟨g0, h0, l0⟩ := gor_back (inv_run ops) (.unsubscribe c i :: more) hg' (by omega)
    have hs0 : g0.sub = i := l0.sub.symm.trans hs
    have hc0 : g0.conn = c := ((inv_run ops).own c k i hk hi).2 j g0 h0 hs0
    have hb : g0.onBus = true := ((inv_run ops).bus j g0 k h0 (by rw [hc0]; exact hk)).2 (by rw [hs0]; exact hi)
    have h1' : (step (run ops) (.unsubscribe c i)).gor j = some (unhook (run ops).log.length [i] g0) := by
      rw [hst]
      exact map_at h0 _
    obtain ⟨g2, h2, l2⟩ := gor_steps (inv_step (inv_run ops) (.unsubscribe c i)) more h1'
    have hg'' : (more.foldl step (step (run ops) (.unsubscribe c i))).gor j = some g := hg'
    rw [hg''] at h2
    injection h2 with h2
    subst h2
    have ht : g.till = some (run ops).log.length := by
      apply l2.till
      · unfold unhook
        rw [if_pos ⟨hb, by rw [hs0]; exact List.mem_singleton_self _⟩]
      · unfold unhook
        rw [if_pos ⟨hb, by rw [hs0]; exact List.mem_singleton_self _⟩]
    rw [l0.conn.trans hc0] at hl
    exact ⟨l, hl, es, h1, fun e he => (h3 e he).2.2 _ ht⟩

example : ∃ k, (run sampleOps).conn 0 = some k ∧ k.reading = true ∧ k.owed = none ∧ 0 ∈ k.subs :=
  ⟨_, rfl, by decide +kernel⟩

/-- Nobody can cancel the subscription of another connection: the answer is false, and nothing else
changes. -/
theorem cannot_cancel_others (ops : List Op) (c d i : Nat) (k l : Conn) (hk : (run ops).conn c = some k)
    (hl : (run ops).conn d = some l) (hne : c ≠ d) (hi : i ∈ l.subs) (hr : k.reading = true) (ho : k.owed = none) :
    (∃ k', (run (ops ++ [.unsubscribe c i])).conn c = some k' ∧ k'.owed = some (.cancelled i false) ∧ k'.subs = k.subs) ∧
    (run (ops ++ [.unsubscribe c i])).gor = (run ops).gor ∧
    ∀ b, b ≠ c → (run (ops ++ [.unsubscribe c i])).conn b = (run ops).conn b := by
  have hn : i ∉ k.subs := fun h => hne (listed_once ops hk hl h hi)
  rw [run_snoc]
  show _ ∧ (unsubscribe c i (run ops)).gor = _ ∧ ∀ b, b ≠ c → (unsubscribe c i (run ops)).conn b = _
  have : unsubscribe c i (run ops) =
      { run ops with conn := setAt (run ops).conn c { k with owed := some (.cancelled i false) } } := by
    unfold unsubscribe
    rw [hk]
    dsimp only
    rw [if_pos ⟨hr, ho⟩, if_neg hn]
  show (∃ k', (unsubscribe c i (run ops)).conn c = some k' ∧ _) ∧ _
  rw [this]
  exact ⟨⟨_, setAt_eq, rfl, rfl⟩, rfl, fun b hb => setAt_ne hb⟩

example : ∃ k l, (run (sampleOps ++ [.connect])).conn 1 = some k ∧ (run (sampleOps ++ [.connect])).conn 0 = some l ∧
    0 ∈ l.subs ∧ k.reading = true ∧ k.owed = none := ⟨_, _, rfl, rfl, by decide +kernel⟩

/-- When the connection is found down, all its subscriptions are taken from the bus, for good. -/
theorem closed_off_bus (ops more : List Op) (c : Nat) (k : Conn) (hk : (run ops).conn c = some k)
    (hu : k.up = false) (ho : k.owed = none) (j : Nat) (g : Gor)
    (hg : (run (ops ++ .readEnd c :: more)).gor j = some g) (hc : g.conn = c) : g.onBus = false := by
  have h1 : ∃ k1, (step (run ops) (.readEnd c)).conn c = some k1 ∧ k1.reading = false := by
    show ∃ k1, (readEnd c (run ops)).conn c = some k1 ∧ _
    unfold readEnd
    rw [hk]
    dsimp only
    by_cases hr : k.reading = true
    · rw [if_pos ⟨hu, hr, ho⟩]
      exact ⟨_, setAt_eq, rfl⟩
    · rw [if_neg (fun h => hr h.2.1)]
      exact ⟨k, hk, by simpa using hr⟩
  obtain ⟨k1, h1, h2⟩ := h1
  obtain ⟨k2, h3, l⟩ := conn_steps (inv_step (inv_run ops) (.readEnd c)) more h1
  have hinv := inv_run (ops ++ .readEnd c :: more)
  have h4 : (run (ops ++ .readEnd c :: more)).conn g.conn = some k2 := by
    rw [hc, run_append]
    exact h3
  have h5 := hinv.stopped _ k2 h4 (l.reading h2)
  have := hinv.bus j g k2 hg h4
  rw [h5] at this
  cases hb : g.onBus with
  | false => rfl
  | true => exact absurd (this.1 hb) (by simp)

example : ∃ k, (run (sampleOps ++ [.down 0])).conn 0 = some k ∧ k.up = false ∧ k.owed = none :=
  ⟨_, rfl, by decide +kernel⟩

/-- A subscriber gets an event it is free to take, as soon as it handles it. (In full: every event. Missing:
events that come while it is not free to take them, and those that cannot be decoded.) -/
theorem misses_nothing_partial (ops : List Op) (b : Body) (ready : List Nat) (j : Nat) (g : Gor) (k : Conn)
    (hg : (run ops).gor j = some g) (hk : (run ops).conn g.conn = some k) (hb : g.onBus = true)
    (hr : g.running = true) (hf : g.holding = none) (hh : g.job.hears b = true) (hd : b ≠ .txLogs none)
    (hj : j ∈ ready) (hu : k.up = true) :
    ∃ k' is, (run (ops ++ [.publish b ready, .handle j])).conn g.conn = some k' ∧
      k'.out = k.out ++ is.map (.note g.sub j) ∧ News g.job b is := by
  rw [run_append]
  show ∃ k' is, (handle j (publish b ready (run ops))).conn g.conn = some k' ∧ _
  have h1 : (publish b ready (run ops)).gor j = some { g with holding := some ⟨(run ops).log.length, b⟩ } := by
    show ((run ops).gor j).map _ = _
    rw [hg]
    show some (offer _ _ g) = _
    unfold offer
    rw [if_pos ⟨hb, hh, hr, hf, List.contains_iff_mem.2 hj⟩]
  have h2 : (publish b ready (run ops)).conn g.conn = some k := hk
  cases hi : g.job.items b with
  | none => exact absurd (items_none hi).2 hd
  | some is =>
    unfold handle
    rw [h1]
    dsimp only
    rw [hi]
    dsimp only
    rw [h2]
    dsimp only
    rw [if_pos hu]
    exact ⟨_, is, setAt_eq, rfl, items_news hh hi⟩

example : ∃ g k, (run sampleOps).gor 0 = some g ∧ (run sampleOps).conn g.conn = some k ∧ g.onBus = true ∧
    g.running = true ∧ g.holding = none ∧ g.job.hears (.header (sampleBlock 5)) = true ∧ k.up = true :=
  ⟨_, _, rfl, rfl, by decide +kernel⟩

/-- Not every event reaches its subscriber: one reported while the one before is being handled is lost,
though the subscription is in force and the client is connected throughout. -/
theorem burst_loses : ∃ (ops : List Op) (k : Conn) (g : Gor),
    (run ops).conn 0 = some k ∧ (run ops).gor 0 = some g ∧ g.onBus = true ∧ g.running = true ∧ g.holding = none ∧
    k.up = true ∧ (run ops).log.map (·.body) = [.header (sampleBlock 4), .header (sampleBlock 5)] ∧
    k.out = [.subscribed 0, .note 0 0 (.head ⟨4, 1, 2, 3, 1000000000, 0, 0⟩)] :=
  ⟨[.connect, .subscribe 0 .heads true, .reply 0, .publish (.header (sampleBlock 4)) [0],
    .publish (.header (sampleBlock 5)) [0], .handle 0], _, _, rfl, rfl, by decide +kernel⟩

/-- A notification can come before the answer that names its subscription. -/
theorem note_before_answer : ∃ (ops : List Op) (k : Conn),
    (run ops).conn 0 = some k ∧ k.out = [.note 0 0 (.head ⟨4, 1, 2, 3, 1000000000, 0, 0⟩), .subscribed 0] :=
  ⟨[.connect, .subscribe 0 .heads true, .publish (.header (sampleBlock 4)) [0], .handle 0, .reply 0], _, rfl,
    by decide +kernel⟩

/-! ## Goroutines -/

/-- A goroutine goes on for ever, also when its subscription was cancelled or its connection closed,
unless the node reports a transaction that cannot be decoded. -/
theorem goroutines_never_end (ops : List Op) (hd : ∀ e ∈ (run ops).log, e.body ≠ .txLogs none) (j : Nat) (g : Gor)
    (hg : (run ops).gor j = some g) : g.running = true := by
  cases hr : g.running with
  | true => rfl
  | false =>
    obtain ⟨_, _, e, he, hb⟩ := quiet_run ops j g hg hr
    exact absurd hb (hd e he)

example : (∀ e ∈ (run (sampleOps ++ [.down 0, .readEnd 0])).log, e.body ≠ .txLogs none) ∧
    ∃ g, (run (sampleOps ++ [.down 0, .readEnd 0])).gor 0 = some g ∧ g.onBus = false :=
  ⟨by decide +kernel, _, rfl, by decide +kernel⟩

/-- One client that connects, subscribes, and leaves. -/
def visit (c : Nat) : List Op := [.connect, .subscribe c .heads true, .reply c, .down c, .readEnd c]

def visits (n : Nat) : List Op := (List.range n).flatMap visit

theorem visit_leaves {s : State} {n : Nat} (h1 : s.nextConn = n) (h2 : s.nextGor = n) :
    ∃ g, ((visit n).foldl step s).gor n = some g ∧ g.running = true ∧ g.onBus = false ∧
      ((visit n).foldl step s).nextConn = n + 1 ∧ ((visit n).foldl step s).nextGor = n + 1 := by
  subst h2
  have e1 : step s .connect = { s with conn := setAt s.conn s.nextGor ⟨true, true, [], none, []⟩, nextConn := s.nextGor + 1 } := by
    show connect s = _
    unfold connect
    rw [h1]
  simp only [visit, List.foldl_cons, List.foldl_nil, e1]
  simp only [step, subscribe, setAt_eq, start]
  simp only [and_self, if_true, reply, setAt_eq]
  simp only [down, setAt_eq]
  simp only [readEnd, setAt_eq, and_self, if_true, Option.map_some, newGor, unhook, List.mem_cons, true_or]
  exact ⟨_, rfl, rfl, rfl, trivial⟩

theorem visits_log (n : Nat) : (run (visits n)).log = [] := by
  apply logs_same
  intro o ho b r he
  obtain ⟨c, _, hc⟩ := List.mem_flatMap.1 ho
  subst he
  simp [visit] at hc

theorem visits_run (n : Nat) : (run (visits n)).nextConn = n ∧ (run (visits n)).nextGor = n ∧
    ∀ j, j < n → ∃ g, (run (visits n)).gor j = some g ∧ g.running = true ∧ g.onBus = false := by
  induction n with
  | zero => exact ⟨rfl, rfl, fun j h => by omega⟩
  | succ n ih =>
    obtain ⟨h1, h2, h3⟩ := ih
    have he : run (visits (n + 1)) = (visit n).foldl step (run (visits n)) := by
      rw [← run_append]
      unfold visits
      rw [List.range_succ, List.flatMap_append, List.flatMap_singleton]
    obtain ⟨g, k1, k2, k3, k4, k5⟩ := visit_leaves h1 h2
    rw [he]
    refine ⟨k4, k5, fun j hj => ?_⟩
    by_cases hjn : j = n
    · subst hjn
      exact ⟨g, k1, k2, k3⟩
    · obtain ⟨g0, l1, l2, l3⟩ := h3 j (by omega)
      obtain ⟨g', l4, l5⟩ := gor_steps (inv_run (visits n)) (visit n) l1
      refine ⟨g', l4, ?_, ?_⟩
      · have hr := goroutines_never_end (visits (n + 1)) (by
          intro e hm
          have : (run (visits (n + 1))).log = [] := visits_log (n + 1)
          rw [this] at hm
          cases hm) j g' (by rw [he]; exact l4)
        exact hr
      · cases hb : g'.onBus with
        | false => rfl
        | true =>
          rw [l5.bus hb] at l3
          cases l3

/-- So clients that come and go leave a goroutine behind each time: after any number of visits there are
as many running goroutines, none of which will ever be sent anything. -/
theorem visits_pile_up (n : Nat) : ∀ j, j < n → ∃ g, (run (visits n)).gor j = some g ∧ g.running = true ∧ g.onBus = false :=
  (visits_run n).2.2

/-- An event that cannot be decoded ends a subscription to logs: it stays in the table, but the goroutine
never writes again. -/
theorem undecodable_silences (ops more : List Op) (j : Nat) (g : Gor) (k : Conn) (e : Ev) (c : Criteria)
    (hg : (run ops).gor j = some g) (hk : (run ops).conn g.conn = some k) (hh : g.holding = some e)
    (hj : g.job = .txLogs c) (he : e.body = .txLogs none) :
    (∃ g', (run (ops ++ [.handle j])).gor j = some g' ∧ g'.running = false ∧ g'.onBus = g.onBus) ∧
    (run (ops ++ [.handle j])).conn g.conn = some k ∧
    ∃ k', (run (ops ++ .handle j :: more)).conn g.conn = some k' ∧ notesBy j k'.out = notesBy j k.out := by
  have hst : step (run ops) (.handle j) =
      { run ops with gor := setAt (run ops).gor j { g with holding := none, running := false } } := by
    show handle j (run ops) = _
    unfold handle
    rw [hg]
    dsimp only
    rw [hh]
    dsimp only
    rw [hj, he]
    rfl
  refine ⟨?_, ?_, ?_⟩
  · rw [run_snoc, hst]
    exact ⟨_, setAt_eq, rfl, rfl⟩
  · rw [run_snoc, hst]
    exact hk
  · rw [run_append]
    show ∃ k', (more.foldl step (step (run ops) (.handle j))).conn g.conn = some k' ∧ _
    have h1 : (step (run ops) (.handle j)).gor j = some { g with holding := none, running := false } := by
      rw [hst]
      exact setAt_eq
    have h2 : (step (run ops) (.handle j)).conn g.conn = some k := by
      rw [hst]
      exact hk
    exact silent_steps (inv_step (inv_run ops) (.handle j)) h1 h2 ⟨rfl, rfl⟩ more

def undecodableOps : List Op :=
  [.connect, .subscribe 0 (.logs ⟨[], []⟩) true, .reply 0, .publish (.txLogs none) [0, 1]]

example : ∃ g k e c, (run undecodableOps).gor 0 = some g ∧ (run undecodableOps).conn g.conn = some k ∧
    g.holding = some e ∧ g.job = .txLogs c ∧ e.body = .txLogs none ∧ 0 ∈ k.subs :=
  ⟨_, _, _, _, rfl, rfl, rfl, rfl, rfl, by decide +kernel⟩

end Sock
