import Verif.Typed.Doc
import Verif.Typed.DataSpec
/-!
# What a signature over a document's typed data should fix
-/
namespace Typed

/-- The names of all fields within a value are clean. -/
inductive CleanKeys : J → Prop where
  | null : CleanKeys .null
  | bool (b : Bool) : CleanKeys (.bool b)
  | num (n : Int) : CleanKeys (.num n)
  | str (s : Bytes) : CleanKeys (.str s)
  | arr (l : List J) (h : ∀ v ∈ l, CleanKeys v) : CleanKeys (.arr l)
  | obj (l : List (Bytes × J)) (hk : ∀ k v, (k, v) ∈ l → Clean k) (h : ∀ k v, (k, v) ∈ l → CleanKeys v) :
      CleanKeys (.obj l)

/-- A JSON object as the chain signs them: sorted keys, and no punctuation in the names. -/
def Orderly (d : List (Bytes × J)) : Prop := Canon (.obj d) ∧ CleanKeys (.obj d)

/-- The parts outside the model: the hash has 32 bytes and no collision on the strings considered, and reflection gives
tables of distinct, clean names with the transaction's fields as listed. -/
structure Env.Good (E : Env) : Prop where
  noCollision : NoCollision E.hash
  wide : Wide E.hash
  table : ∀ d ts, E.reflect d = some ts → CleanTable ts ∧ KV.get ts (txt "Tx") = some oldTxFields

/-- The fee of a document has no field `feePayer` of its own (the SDK writes `payer`). -/
def NoFeePayer (d : List (Bytes × J)) : Prop :=
  ∀ f, KV.get d (txt "fee") = some (.obj f) → KV.get f (txt "feePayer") = none

/-- Two transactions say the same, as far as typed data goes. -/
structure SameOrder (pb : Bytes → Option Int) (s s' : SignDoc) : Prop where
  chainId : s.chainId = s'.chainId
  account : s.account = s'.account
  sequence : s.signers.map Signer.sequence = s'.signers.map Signer.sequence
  memo : s.memo = s'.memo
  amount : s.amount = s'.amount
  gas : s.gas = s'.gas
  msgs : Alike pb (.arr s.msgs) (.arr s'.msgs)
  timeout : s.timeout = s'.timeout
  options : s.options = s'.options ∧ s.nonCritical = s'.nonCritical

/-- Messages as the chain writes them. -/
def GoodMsgs (ms : List J) : Prop := ∀ m ∈ ms, Canon m ∧ CleanKeys m

end Typed
