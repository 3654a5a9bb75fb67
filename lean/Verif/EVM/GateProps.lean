import Verif.EVM.GateLemmas
/-
Properties of access control and of the built-in contracts of an address.

Statements are in terms of the addresses on the lists (Gate.Spec), of `setParams` (which parameters the chain
accepts) and of `run` (all that can happen in one transaction, whatever the contracts do).
-/
namespace Gate

/-- The addresses of the nine standard contracts. -/
abbrev Standard (a : Addr) : Prop :=
  ∃ n : Fin 16, 1 ≤ n.val ∧ n.val ≤ 9 ∧ a = List.replicate 39 0 ++ [n]

/-- **Which parameters are accepted**: known kinds of access, lists of addresses, and no text twice on the list
of active contracts; the lists of access are stored as they are, the active ones in some order. -/
theorem accepted_iff (p : Params) : (∃ q, setParams p = some q) ↔
    p.create.access < 3 ∧ p.call.access < 3 ∧ p.active.Nodup ∧
    (∀ t, t ∈ p.create.list ∨ t ∈ p.call.list ∨ t ∈ p.active → ∃ a, Spec.ReadsAs t a) := by
  simp only [← isAddress_iff]
  constructor
  · rintro ⟨q, h⟩
    obtain ⟨_, _, _, h1, h2, h3, h4, h5, h6⟩ := setParams_some h
    rw [List.all_eq_true] at h3 h4 h5
    exact ⟨h1, h2, h6, fun t ht => by rcases ht with h | h | h <;> first | exact h3 t h | exact h4 t h | exact h5 t h⟩
  · rintro ⟨h1, h2, h3, h4⟩
    exact ⟨_, setParams_of h1 h2 (List.all_eq_true.2 fun t h => h4 t (Or.inl h))
      (List.all_eq_true.2 fun t h => h4 t (Or.inr (Or.inl h)))
      (List.all_eq_true.2 fun t h => h4 t (Or.inr (Or.inr h))) h3⟩

theorem accepted_keeps {p q : Params} (h : setParams p = some q) :
    q.create = p.create ∧ q.call = p.call ∧ ∀ t, t ∈ q.active ↔ t ∈ p.active :=
  let ⟨h1, h2, h3, _⟩ := setParams_some h
  ⟨h1, h2, h3⟩

/-- A text reads as one address at most. -/
theorem reads_one {t : List Nat} {a b : List (Fin 16)} (h1 : Spec.ReadsAs t a) (h2 : Spec.ReadsAs t b) : a = b :=
  reads_unique h1 h2

/-- **Who acts.** In every transaction, whatever its contracts do, code runs and contracts are deployed only at
the instance of callers the policy allows.  Missing for the full statement: lists with entries not written the
way the chain writes addresses (see `blocked_by_other_spelling`). -/
theorem permitted_partial {B : Type} {e : Env B} {p : Params} {signer : Addr} {table : Addr → Option B}
    {ops : List Op} {t : St B} (hp : setParams p = some e.params)
    (hu1 : Spec.Usual e.caps e.params.call.list) (hu2 : Spec.Usual e.caps e.params.create.list)
    (hf : ∀ a b, table a = some b → Standard a) (h : run e signer (start table) ops = some t) :
    (∀ k c to b, Event.ran k c to b ∈ t.log → Spec.Allows e.params.call signer c) ∧
    (∀ c new, Event.deployed c new ∈ t.log → Spec.Allows e.params.create signer c) := by
  obtain ⟨e1, e2, _, _, _, v1, v2, _, _⟩ := setParams_some hp
  have hl := (run_inv ops h (inv_start hf) (fun _ hx => nomatch hx)).2
  refine ⟨fun k c to b hx => ?_, fun c new hx => ?_⟩
  · exact (may_iff (e2 ▸ v2) hu1 signer c).1 (hl _ hx).1
  · exact (may_iff (e1 ▸ v1) hu2 signer c).1 (hl _ hx)

/-- **Nobody else is held back.** A call the policy allows runs what is promised at its address. -/
theorem allowed_call_runs_partial {B : Type} {e : Env B} {p : Params} {signer c to : Addr} {table : Addr → Option B}
    {ops : List Op} {s : St B} {k : Kind} {b : Option B} (hp : setParams p = some e.params)
    (hu1 : Spec.Usual e.caps e.params.call.list) (hu3 : Spec.Usual e.caps e.params.active)
    (hf : ∀ a b, table a = some b → Standard a) (h : run e signer (start table) ops = some s)
    (hc : s.caller signer = some c) (ha : Spec.Allows e.params.call signer c) (hb : Spec.Answers e to b) :
    ∃ t, step e signer s (.call k to true) = some t ∧ t.log = s.log ++ [.ran k c to b] := by
  obtain ⟨e1, e2, e3, _, _, v1, v2, v3, _⟩ := setParams_some hp
  have hv3 : e.params.active.all isAddress = true := by
    rw [List.all_eq_true] at v3 ⊢; exact fun t ht => v3 t ((e3 t).1 ht)
  have hi := (run_inv ops h (inv_start hf) (fun _ hx => nomatch hx)).1
  unfold step
  dsimp only
  rw [hc]
  exact call_of_seen (s := { s with started := true }) k hi ((may_iff (e2 ▸ v2) hu1 signer c).2 ha)
    ((seen_iff hv3 hu3 to b).2 hb)

/-- **Refused calls and deployments change nothing**: nothing runs, no frame is entered, the built-in contracts
of the transaction stay as they are. -/
theorem refused_changes_nothing {B : Type} {e : Env B} {p : Params} {signer c : Addr} {s : St B}
    (hp : setParams p = some e.params)
    (hu1 : Spec.Usual e.caps e.params.call.list) (hu2 : Spec.Usual e.caps e.params.create.list)
    (hc : s.caller signer = some c) :
    (¬Spec.Allows e.params.call signer c → ∀ k to fits,
      step e signer s (.call k to fits) = some { s with started := true }) ∧
    (¬Spec.Allows e.params.create signer c → ∀ new fits,
      step e signer s (.create new fits) = some { s with started := true }) := by
  obtain ⟨e1, e2, _, _, _, v1, v2, _, _⟩ := setParams_some hp
  constructor
  · intro hn k to fits
    rw [← may_iff (e2 ▸ v2) hu1] at hn
    unfold step
    dsimp only
    rw [hc]
    dsimp only
    rw [call_eq, if_neg hn]
  · intro hn new fits
    rw [← may_iff (e1 ▸ v1) hu2] at hn
    unfold step
    dsimp only
    rw [hc]
    dsimp only
    unfold create
    rw [if_neg hn]

/-- **As whom code acts.** Called code acts as its own address, code run by CALLCODE or DELEGATECALL as the caller,
a constructor as the new contract; a built-in contract enters no frame; a return goes back to where the frame was
entered. -/
theorem acts_as {B : Type} {e : Env B} {signer c : Addr} {s t : St B} (hs : s.caller signer = some c) :
    (∀ k to b, step e signer s (.call k to true) = some t → t.log = s.log ++ [.ran k c to b] →
      (b = none → t.caller signer = some (if k = .call ∨ k = .staticcall then to else c) ∧
        ∃ u, step e signer t .leave = some u ∧ u.frames = s.frames) ∧
      (b ≠ none → t.frames = s.frames)) ∧
    (∀ new, step e signer s (.create new true) = some t → t.log = s.log ++ [.deployed c new] →
      t.caller signer = some new ∧ ∃ u, step e signer t .leave = some u ∧ u.frames = s.frames) := by
  constructor
  · intro k to b h hl
    unfold step at h
    dsimp only at h
    rw [hs] at h
    dsimp only at h
    exact call_acts h hl
  · intro new h hl
    unfold step at h
    dsimp only at h
    rw [hs] at h
    dsimp only at h
    obtain ⟨_, h2, h3⟩ := create_cases h
    rcases h3 with ⟨h4, _⟩ | ⟨_, _, h4, _⟩
    · rw [h4] at hl
      exact absurd hl (by simp)
    · refine ⟨?_, _, rfl, ?_⟩
      · unfold St.caller; rw [h2, h4]; rfl
      · show t.frames.tail = _
        rw [h4]; rfl

/-- **Only the signer counts where calls need permission**: a transaction that is a call does something only if
its signer is on the list — that a contract is listed never lets anyone else in. -/
theorem permission_is_the_signers {B : Type} {e : Env B} {p : Params} {signer to : Addr} {k : Kind} {fits : Bool}
    {table : Addr → Option B} {ops : List Op} {t : St B} (hp : setParams p = some e.params)
    (hu1 : Spec.Usual e.caps e.params.call.list) (ha : e.params.call.access = 2)
    (h : run e signer (start table) (.call k to fits :: ops) = some t)
    (hn : ¬Spec.Listed e.params.call.list signer) : t.log = [] := by
  obtain ⟨_, e2, _, _, _, _, v2, _, _⟩ := setParams_some hp
  have hm : may e.caps e.params.call signer signer ≠ true := by
    rw [Ne, may_iff (e2 ▸ v2) hu1]
    rintro (⟨h0, _⟩ | ⟨_, h1⟩)
    · rw [ha] at h0; cases h0
    · exact hn (h1.elim id id)
  exact refused_tx hm h

/-- **Restricted calls**: no transaction that is a call does anything, whoever signs it — the chain's own modules
call contracts the same way. -/
theorem restricted_does_nothing {B : Type} {e : Env B} {signer to : Addr} {k : Kind} {fits : Bool}
    {table : Addr → Option B} {ops : List Op} {t : St B} (ha : e.params.call.access = 1)
    (h : run e signer (start table) (.call k to fits :: ops) = some t) : t.log = [] :=
  refused_tx (by unfold may; rw [ha]; exact fun h => nomatch h) h

/-- **Which built-in contract answers** depends on the address and the parameters alone — not on the calls
before, although each call to a built-in contract replaces the transaction's whole table by that one contract.
Missing for the full statement: entries of the active list written in another way (see
`inactive_by_other_spelling`). -/
theorem builtin_by_address_partial {B : Type} {e : Env B} {p : Params} {signer : Addr} {table : Addr → Option B}
    {ops : List Op} {t : St B} (hp : setParams p = some e.params) (hu3 : Spec.Usual e.caps e.params.active)
    (hf : ∀ a b, table a = some b → Standard a) (h : run e signer (start table) ops = some t)
    {k : Kind} {c to : Addr} {b : Option B} (hx : Event.ran k c to b ∈ t.log) : Spec.Answers e to b := by
  obtain ⟨_, _, e3, _, _, _, _, v3, _⟩ := setParams_some hp
  have hv3 : e.params.active.all isAddress = true := by
    rw [List.all_eq_true] at v3 ⊢; exact fun t ht => v3 t ((e3 t).1 ht)
  exact (seen_iff hv3 hu3 to b).1 ((run_inv ops h (inv_start hf) (fun _ hx => nomatch hx)).2 _ hx).2

/-- **The fork does not matter**: whichever of the standard contracts the fork brings, every transaction goes the
same way — it gets the chain's versions of all nine. -/
theorem fork_does_not_matter {B : Type} {e : Env B} {signer : Addr} {table table' : Addr → Option B}
    (hf : ∀ a b, table a = some b → Standard a) (hf' : ∀ a b, table' a = some b → Standard a) (ops : List Op) :
    (run e signer (start table) ops).map St.log = (run e signer (start table') ops).map St.log :=
  run_alike ops ⟨rfl, rfl, rfl, inv_start hf, inv_start hf'⟩

/-- **Enabling contracts** keeps those that are active, adds the new ones and changes nothing else. -/
theorem enable_adds {caps : Addr → Nat → Bool} {p q : Params} {l : List Addr} (h : enable caps p l = some q) :
    q.create = p.create ∧ q.call = p.call ∧ ∀ t, t ∈ q.active ↔ t ∈ p.active ∨ ∃ a ∈ l, t = text caps a := by
  unfold enable at h
  split at h
  · cases h
  · obtain ⟨h1, h2, h3, _⟩ := setParams_some h
    refine ⟨h1, h2, fun t => ?_⟩
    rw [h3, List.mem_append, List.mem_map]
    simp only [eq_comm]

/-! ### Where the code does otherwise -/

/-- **A blocked address acts freely** when the entry of the list is written without "0x": the parameters are
accepted, the entry reads as the address, and its transactions run. -/
theorem blocked_by_other_spelling (caps : Addr → Nat → Bool) {a : Addr} (h : a.length = 40) :
    ∃ p q : Params, setParams p = some q ∧ q.call.access = 0 ∧ Spec.Listed q.call.list a ∧
      ¬Spec.Allows q.call a a ∧ may caps q.call a a = true := by
  have hr := reads_digits caps h
  have hv := isAddress_digits caps h
  refine ⟨⟨⟨0, []⟩, ⟨0, [digits caps a]⟩, []⟩, ⟨⟨0, []⟩, ⟨0, [digits caps a]⟩, []⟩, ?_, rfl,
    ⟨_, List.mem_singleton.2 rfl, hr⟩, ?_, ?_⟩
  · rw [setParams_of (Nat.lt_of_sub_pos (by exact Nat.zero_lt_succ _)) (Nat.lt_of_sub_pos (by exact Nat.zero_lt_succ _)) rfl (by simp [hv]) rfl List.nodup_nil]; rfl
  · rintro (⟨_, h1, _⟩ | ⟨h1, _⟩)
    · exact h1 ⟨_, List.mem_singleton.2 rfl, hr⟩
    · cases h1
  · have : text caps a ≠ digits caps a := digits_ne_text caps a a
    unfold may
    simp [this]

/-- **A permitted address is refused** when the entry of the list is written without "0x". -/
theorem refused_by_other_spelling (caps : Addr → Nat → Bool) {a : Addr} (h : a.length = 40) :
    ∃ p q : Params, setParams p = some q ∧ q.call.access = 2 ∧ Spec.Listed q.call.list a ∧
      ∀ c, may caps q.call a a = false ∧ may caps q.call c a = false := by
  have hr := reads_digits caps h
  have hv := isAddress_digits caps h
  refine ⟨⟨⟨0, []⟩, ⟨2, [digits caps a]⟩, []⟩, ⟨⟨0, []⟩, ⟨2, [digits caps a]⟩, []⟩, ?_, rfl,
    ⟨_, List.mem_singleton.2 rfl, hr⟩, fun c => ?_⟩
  · rw [setParams_of (Nat.lt_of_sub_pos (by exact Nat.zero_lt_succ _)) (Nat.lt_of_sub_pos (by exact Nat.zero_lt_succ _)) rfl (by simp [hv]) rfl List.nodup_nil]; rfl
  · have h1 : text caps a ≠ digits caps a := digits_ne_text caps a a
    have h2 : text caps c ≠ digits caps a := digits_ne_text caps c a
    unfold may
    simp [h1, h2]

/-- **Small letters**: an address with a letter the chain writes as a capital, listed in small letters, is not
seen either. -/
theorem small_letters_not_seen (caps : Addr → Nat → Bool) {a : Addr} (h : a.length = 40) {i : Nat} {n : Fin 16}
    (hn : a[i]? = some n) (hl : 10 ≤ n.val) (hc : caps a i = true) :
    Spec.ReadsAs (48 :: 120 :: a.map small) a ∧ isAddress (48 :: 120 :: a.map small) = true ∧
    may caps ⟨0, [48 :: 120 :: a.map small]⟩ a a = true := by
  have he : a.map small = digits (fun _ _ => false) a := by
    apply List.ext_getElem?
    intro j
    rw [digits_getElem?, List.getElem?_map]
    rfl
  refine ⟨?_, ?_, ?_⟩
  · rw [he]; exact reads_text (fun _ _ => false) h
  · rw [he]; exact (isAddress_text (fun _ _ => false)).2 h
  · have hne : text caps a ≠ 48 :: 120 :: a.map small := by
      intro ht
      have ht' : digits caps a = a.map small := by
        have := congrArg (List.drop 2) ht; exact this
      have := congrArg (fun l => l[i]?) ht'
      rw [digits_getElem?, List.getElem?_map, hn, hc] at this
      simp only [Option.map_some, ↓reduceIte, Option.some.injEq] at this
      unfold big small at this
      rw [if_neg (by omega), if_neg (by omega)] at this
      omega
    unfold may
    simp [hne]

/-- **A contract stays inactive** when the entry of the active list is written without "0x": calls to its address
run as calls to an account without code. -/
theorem inactive_by_other_spelling {B : Type} (caps : Addr → Nat → Bool) (own : Addr → Option B) {a : Addr}
    (h : a.length = 40) (hs : ¬Standard a) (signer : Addr) :
    ∃ p q : Params, setParams p = some q ∧ Spec.Listed q.active a ∧
      ∃ t, run ⟨caps, q, own, fun _ => none⟩ signer (start fun _ => none) [.call .call a true] = some t ∧
        t.log = [.ran .call signer a none] := by
  have hr := reads_digits caps h
  have hv := isAddress_digits caps h
  refine ⟨⟨⟨0, []⟩, ⟨0, []⟩, [digits caps a]⟩, ⟨⟨0, []⟩, ⟨0, []⟩, [digits caps a]⟩, ?_,
    ⟨_, List.mem_singleton.2 rfl, hr⟩, ?_⟩
  · rw [setParams_of (Nat.lt_of_sub_pos (by exact Nat.zero_lt_succ _)) (Nat.lt_of_sub_pos (by exact Nat.zero_lt_succ _)) rfl rfl (by simp [hv]) (by simp)]; rfl
  · have h1 : text caps a ≠ digits caps a := digits_ne_text caps a a
    have h2 : berlin.contains a = false := by
      cases hb : berlin.contains a with
      | false => rfl
      | true => exact absurd ((berlin_iff a).1 hb) hs
    obtain ⟨t, ht, hl⟩ := call_of_seen (e := ⟨caps, ⟨⟨0, []⟩, ⟨0, []⟩, [digits caps a]⟩, own, fun _ => none⟩)
      (s := ⟨true, [], fun _ => none, []⟩) (signer := signer) (c := signer) (to := a) (b := none) .call
      (fun _ _ h => nomatch h) (by unfold may; rfl)
      (by
        unfold Seen Env.find Env.isActive
        have : [digits caps a].contains (text caps a) = false := by simp [h1]
        rw [this, h2]
        rfl)
    refine ⟨t, ?_, hl⟩
    have hst : step (⟨caps, ⟨⟨0, []⟩, ⟨0, []⟩, [digits caps a]⟩, own, fun _ => none⟩ : Env B) signer
        (start fun _ => none) (.call .call a true) = some t := ht
    unfold run
    rw [hst]
    rfl

/-- **A listed address without a contract makes the program panic**: the parameters are accepted, and from then on
every allowed call to that address, from any contract at any depth, ends the transaction with a panic. -/
theorem unknown_active_panics {B : Type} (caps : Addr → Nat → Bool) (own : Addr → Option B)
    (token : Addr → Option (Option B)) {a : Addr} (h : a.length = 40) (ho : own a = none) :
    ∃ p q : Params, setParams p = some q ∧ Spec.Listed q.active a ∧
      ∀ (signer c : Addr) (s : St B) k fits, s.caller signer = some c →
        step ⟨caps, q, own, token⟩ signer s (.call k a fits) = none := by
  have hv : isAddress (text caps a) = true := (isAddress_text caps).2 h
  refine ⟨⟨⟨0, []⟩, ⟨0, []⟩, [text caps a]⟩, ⟨⟨0, []⟩, ⟨0, []⟩, [text caps a]⟩, ?_,
    ⟨_, List.mem_singleton.2 rfl, reads_text caps h⟩, ?_⟩
  · rw [setParams_of (Nat.lt_of_sub_pos (by exact Nat.zero_lt_succ _)) (Nat.lt_of_sub_pos (by exact Nat.zero_lt_succ _)) rfl rfl (by simp [hv]) (by simp)]; rfl
  · intro signer c s k fits hc
    unfold step
    dsimp only
    rw [hc]
    dsimp only
    rw [call_eq, if_pos (by unfold may; rfl)]
    have : (Env.find ⟨caps, ⟨⟨0, []⟩, ⟨0, []⟩, [text caps a]⟩, own, token⟩ a : Found B) = .panic := by
      unfold Env.find Env.isActive
      dsimp only
      rw [List.contains_iff_mem.2 (List.mem_singleton.2 rfl), Bool.true_or, if_pos rfl, ho]
    rw [this]

/-! ### The hypotheses can be met -/

/-- Lists of addresses as the chain writes them are written in the usual way. -/
theorem usual_lists (caps : Addr → Nat → Bool) {l : List Addr} (h : ∀ a ∈ l, a.length = 40) :
    Spec.Usual caps (l.map (text caps)) := by
  intro t ht a hr
  obtain ⟨b, hb, rfl⟩ := List.mem_map.1 ht
  rw [reads_unique hr (reads_text caps (h b hb))]

/-- The address 0x…0800 of the staking contract, a contract and two accounts. -/
def staking : Addr := List.replicate 37 0 ++ [8, 0, 0]
def alice : Addr := List.replicate 39 0 ++ [10]
def bob : Addr := List.replicate 38 0 ++ [11, 12]
def shop : Addr := List.replicate 38 0 ++ [13, 14]
def capsDemo : Addr → Nat → Bool := fun _ i => i % 2 == 0
def paramsDemo : Params :=
  ⟨⟨2, [text capsDemo alice]⟩, ⟨0, [text capsDemo bob]⟩, [text capsDemo staking]⟩
def envDemo : Env Nat :=
  ⟨capsDemo, paramsDemo, fun a => if a = staking then some 800 else if a ∈ berlin then some 1 else none, fun _ => none⟩

/-- The parameters are accepted. -/
example : setParams paramsDemo = some envDemo.params := by decide +kernel
/-- alice calls the shop, which calls staking and a standard contract and deploys (alice is listed); the new contract
at bob's address may not call, being blocked; then the shop calls staking again. -/
example : ((run envDemo alice (start fun _ => none)
    [.call .call shop true, .call .call staking true, .call .staticcall (List.replicate 39 0 ++ [2]) true,
     .create bob true, .call .call staking true, .leave, .call .delegatecall staking true]).map
      fun t => t.log.map fun
        | .ran _ c to b => (c, to, b)
        | .deployed c n => (c, n, none)) =
    some [(alice, shop, none), (shop, staking, some 800), (shop, List.replicate 39 0 ++ [2], some 1),
      (shop, bob, none), (shop, staking, some 800)] := by decide +kernel
/-- bob is blocked. -/
example : ((run envDemo bob (start fun _ => none) [.call .call shop true, .call .call staking true]).map
    fun t => t.log.length) = some 0 := by decide +kernel
/-- The lists are written in the usual way. -/
example : Spec.Usual capsDemo paramsDemo.call.list :=
  usual_lists capsDemo (l := [bob]) (by decide)
/-- Enabling a second contract. -/
example : (enable capsDemo paramsDemo [shop]).map (fun q => q.active.length) = some 2 := by decide +kernel
/-- The chain's address of the staking contract has the text "0x…0800". -/
example : text capsDemo staking = [48, 120] ++ List.replicate 37 48 ++ [56, 48, 48] := by decide +kernel
/-- An address with a letter the chain writes as a capital. -/
example : bob[38]? = some 11 ∧ capsDemo bob 38 = true := by decide +kernel
/-- Calls restricted: nothing runs. -/
example : ((run { envDemo with params := { paramsDemo with call := ⟨1, []⟩ } } alice (start fun _ => none)
    [.call .call shop true, .call .call staking true]).map fun t => t.log.length) = some 0 := by decide +kernel
/-- Permission needed and bob's contract listed: bob's call does nothing. -/
example : ((run { envDemo with params := { paramsDemo with call := ⟨2, [text capsDemo shop]⟩ } } bob
    (start fun _ => none) [.call .call shop true, .call .call staking true]).map fun t => t.log.length) = some 0 := by
  decide +kernel

end Gate
