import Verif.Hyperion.Evidence
/-!
# Evidence of bad signatures: specification
-/
namespace Evidence

/-- The message to sign: for a batch who gets how much of which token, its number and its end; for a validator set its number, its members and the reward. -/
def SameMessage : Subject → Subject → Prop
  | .batch b, .batch c => b.nonce = c.nonce ∧ b.token = c.token ∧ b.timeout = c.timeout ∧ b.txs.map (fun t => (t.dest, t.amount)) = c.txs.map (fun t => (t.dest, t.amount))
  | .valset v, .valset w => v.nonce = w.nonce ∧ v.members = w.members ∧ v.rewardAmount = w.rewardAmount ∧ v.rewardToken = w.rewardToken
  | _, _ => False

/-- The same item, said to be of another bridge. -/
def Subject.of (b : Bridge) : Subject → Subject
  | .batch x => .batch { x with bridge := b }
  | .valset x => .valset { x with bridge := b }

/-- The chain has asked validators to sign this message for bridge `b`. -/
def Asked (s : State) (b : Bridge) (x : Subject) : Prop := ∃ y, (b, y) ∈ s.asked ∧ SameMessage x y

/-- Validator `v` has signed nothing, for any bridge it is registered with, but messages the chain asked for: whatever a signature by one of its addresses is good
for is the checkpoint of an item that was filed. -/
def Honest (e : Env) (s : State) (v : Val) : Prop :=
  ∀ b a c sig, s.byEth b a = some v → e.recover c sig = some a → ∃ y ∈ s.asked, c = checkpoint e y.2

/-- The same, where the item was filed for the bridge the address is registered with. -/
def HonestPerBridge (e : Env) (s : State) (v : Val) : Prop :=
  ∀ b a c sig, s.byEth b a = some v → e.recover c sig = some a → ∃ y, (b, y) ∈ s.asked ∧ c = checkpoint e y

/-- The property: evidence never costs a validator that has only signed what the chain asked for. -/
def HonestAreSafe (e : Env) : Prop :=
  ∀ os x sig v, Honest e (run e {} os) v → (step e (run e {} os) (.evidence x sig)).tokens v = (run e {} os).tokens v

/-- The property: the same evidence costs its validator only once. -/
def OnceIsEnough (e : Env) : Prop :=
  ∀ s s' x sig v, evidence e s x sig = .slashed s' v → (step e s' (.evidence x sig)).tokens v = s'.tokens v

/-- What evidence needs to be accepted against `v`. -/
structure Convicts (e : Env) (s : State) (x : Subject) (sig : Sig) (v : Val) : Prop where
  unknown : (x.bridge, checkpoint e x) ∉ s.past
  signer : ∃ a, e.recover (checkpoint e x) sig = some a ∧ s.byEth x.bridge a = some v
  staked : s.status v = some .bonded ∨ s.status v = some .unbonding
  bridge : (s.fraction x.bridge).isSome = true

end Evidence
