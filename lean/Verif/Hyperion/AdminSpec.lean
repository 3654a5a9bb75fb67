import Verif.Hyperion.Admin
/-!
# What the administration of bridges should keep: the words of C105
-/
namespace Admin
open Hyperion

/-- The id of the bridge a message names. -/
def Msg.about : Msg → Option Nat
  | .changeInit c _ | .newContract c _ _ _ _ | .put c _ _ | .timeouts c _ _ | .reward c _ _ | .delete c | .pause c _
  | .clearValset c | .force c _ _ _ | .addRpc c _ | .removeRpc c _ | .setToken c _ _ _ _ _ _ | .removeToken c _
  | .mint c _ _ _ | .burn c _ _ | .cancelAll c | .cancelSome c _ | .tokenLogo c _ _ _ | .blockTime c _
  | .counterTime c _ | .batchNonce c _ | .white c _ | .whiteAdd c _ | .whiteRemove c _ | .cleanSkipped c
  | .infos c _ _ _ => some c
  | .add c _ => some c.cid
  | .cleanAllSkipped => none

/-- The two numbers of every bridge are the same, and no two bridges share theirs. -/
def Numbered (cs : List Chain) : Prop := (∀ c ∈ cs, c.hid = c.cid) ∧ (cs.map (·.hid)).Nodup

/-- Withdrawals and batches are stored under their own numbers. -/
def Keyed (p : Hyperion.State) : Prop :=
  (∀ x ∈ p.pool, x.2.hid = x.1.1) ∧ (∀ x ∈ p.batches, (x.2.hid, x.2.nonce, x.2.token) = x.1)

/-- The withdrawals, batches, counter of batches and token links of a bridge are the same in both states. -/
structure PoolSame (h : Nat) (p q : Hyperion.State) : Prop where
  pool : ∀ id, KV.get q.pool (h, id) = KV.get p.pool (h, id)
  index : ∀ t f, KV.get q.index (h, t, f) = KV.get p.index (h, t, f)
  batches : ∀ n t, KV.get q.batches (h, n, t) = KV.get p.batches (h, n, t)
  counter : q.lastBatch h = p.lastBatch h
  links : q.links.filter (fun l => decide (l.hid = h)) = p.links.filter (fun l => decide (l.hid = h))

/-- Everything about a bridge is the same in both states. -/
structure Same (h : Nat) (s t : State) : Prop where
  settings : t.chains.filter (fun c => decide (c.hid = h)) = s.chains.filter (fun c => decide (c.hid = h))
  store : t.store h = s.store h
  pool : PoolSame h s.pool t.pool

/-- The account is the authority of the module. -/
def IsAuthority (e : Env) (w : Text) : Prop := e.addr w = e.addr e.authority

/-- The account is the initializer of the bridge. -/
def IsInitializer (e : Env) (s : State) (h : Nat) (w : Text) : Prop :=
  ∃ c ∈ s.chains, c.hid = h ∧ e.addr c.init = e.addr w

/-- The settings of a bridge. -/
def settings (s : State) (h : Nat) : Option Chain := s.chains.find? (fun c => decide (c.hid = h))

/-- The coins of an account. -/
def coins (s : State) (u : Nat) (d : Denom) : Nat := s.pool.bank.bal (.user u) d

/-- The signer may administer the bridge. -/
def May (e : Env) (w : Text) (c : Chain) : Prop := w = e.authority ∨ e.addr c.init = e.addr w

end Admin
