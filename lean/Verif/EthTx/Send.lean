import Verif.EthTx.Wrap
/-!
# Sending transactions through a node

Models `SetTxDefaults`, `SendRawTransaction` and `Resend` (/repo/helios-chain/rpc/backend/call_tx.go, lines
26-152 and 154-280), `SendTransaction` (/repo/helios-chain/rpc/backend/sign_tx.go, lines 28-108),
`ToTransaction` and `GetData` (/repo/helios-chain/x/evm/types/tx_args.go, lines 57-154 and 239-248), the
nonce of an account with its pending transactions (/repo/helios-chain/rpc/backend/utils.go, lines 45-102)
and `PendingTransactions` (/repo/helios-chain/rpc/backend/chain_info.go, lines 134-157), on the transactions
of `Wrap.lean`.

What the node knows is a parameter: base fee, suggested tip, gas estimates, its chain number, its mempool.
Signing is a parameter as well: it puts the three values of a signature into a transaction and nothing else
(go-ethereum's `WithSignature`).
-/

namespace Send

open Addr Wrap

/-- `TransactionArgs` (tx_args.go lines 21-42). -/
structure Args where
  sender : Option (List Nat)
  to : Option (List Nat)
  gas : Option Nat
  price : Option Nat
  cap : Option Nat
  tip : Option Nat
  value : Option Nat
  nonce : Option Nat
  data : Option (List Nat)
  input : Option (List Nat)
  accesses : Option (List (List Nat × List (List Nat)))
  chain : Option Nat
  deriving DecidableEq, Repr

/-- What the node answers while it fills in: the base fee of the newest block, the tip it suggests, the
next nonce of the sender, and an estimate of gas (`none` for an error). -/
structure Node where
  chain : Nat
  base : Option Nat
  suggest : Option Nat
  next : Nat
  estimate : Args → Option Nat

/-- `GetData` (tx_args.go lines 240-248). -/
def Args.bytes (a : Args) : List Nat :=
  match a.input with
  | some x => x
  | none => match a.data with
    | some x => x
    | none => []

/-- The fees (call_tx.go lines 155-211). -/
def fillFees (n : Node) (a : Args) : Option Args :=
  if a.price.isSome && (a.cap.isSome || a.tip.isSome) then none
  else match a.tip, a.cap with
    | some t, some c => if c < t then none else some a
    | tip, cap =>
      match n.base, a.price with
      | some base, none =>
        match (match tip with | some t => some t | none => n.suggest) with
        | none => none
        | some t =>
          let c := match cap with | some c => c | none => t + base * 2
          if c < t then none else some { a with tip := some t, cap := some c }
      | _, _ =>
        if cap.isSome || tip.isSome then none
        else match a.price with
          | some _ => some a
          | none => match n.suggest with
            | none => none
            | some s => some { a with price := some (s + n.base.getD 0) }

/-- Value and nonce (call_tx.go lines 213-221). -/
def fillBasics (n : Node) (a : Args) : Args :=
  { a with value := some (a.value.getD 0), nonce := some (a.nonce.getD n.next) }

/-- Data (call_tx.go lines 223-239): the two fields agree, and a creation has some. -/
def dataOk (a : Args) : Bool :=
  !(a.data.isSome && a.input.isSome && decide (a.data ≠ a.input)) &&
  (a.to.isSome || decide (0 < (match a.data with
    | some d => d.length
    | none => match a.input with
      | some d => d.length
      | none => 0)))

/-- Gas (call_tx.go lines 241-275). The arguments of the estimate have the data in one field. -/
def fillGas (n : Node) (a : Args) : Option Args :=
  match a.gas with
  | some _ => some a
  | none =>
    match n.estimate { a with data := (match a.input with | some x => some x | none => a.data), input := none } with
    | none => none
    | some g => some { a with gas := some g }

/-- `SetTxDefaults` (call_tx.go lines 154-280). -/
def setDefaults (n : Node) (a : Args) : Option Args :=
  match fillFees n a with
  | none => none
  | some a =>
    if dataOk a then
      match fillGas n (fillBasics n a) with
      | none => none
      | some a => some { a with chain := some (a.chain.getD n.chain) }
    else none

/-- The text of the accesses, none if there are none (tx_args.go lines 100-103). -/
def accText (up : List Nat → Nat → Bool) : Option (List (List Nat × List (List Nat))) → List (Str × List Str)
  | some l => textAccesses up l
  | none => []

/-- `ToTransaction` (tx_args.go lines 57-154): the data of the message, not signed yet. -/
def toData (up : List Nat → Nat → Bool) (a : Args) : Data :=
  ⟨(match a.cap with
    | some c => .dynamic (a.chain.map Int.ofNat) (a.tip.map Int.ofNat) (some (c : Int))
        (accText up a.accesses)
    | none => match a.accesses with
      | some l => .access (a.chain.map Int.ofNat) (a.price.map Int.ofNat) (textAccesses up l)
      | none => .legacy (a.price.map Int.ofNat)),
    a.nonce.getD 0, a.gas.getD 0, toText up a.to, a.value.map Int.ofNat, a.bytes, [], [], []⟩

/-- Putting a signature into a transaction. -/
def withSignature (tx : Tx) (sig : Int × Int × Int) : Tx := { tx with v := sig.1, r := sig.2.1, s := sig.2.2 }

/-- What leaves the node: the message that is broadcast and the hash that is answered. -/
structure Sent where
  msg : Msg
  hash : List Nat
  deriving DecidableEq, Repr

/-- The signed transaction as a message that is looked at and broadcast (sign_tx.go lines 55-108, `Sign` of
/repo/helios-chain/x/evm/types/msg.go). -/
def post (up : List Nat → Nat → Bool) (H : Tx → List Nat) (unprotected : Bool) (isProtected : Tx → Bool) (tx : Tx) :
    Option Sent :=
  match fromTx up H tx with
  | .ok m =>
    if basic H m then
      if !unprotected && !isProtected (asTx m.data) then none
      else some ⟨m, H (asTx m.data)⟩
    else none
  | _ => none

/-- `SendTransaction` (sign_tx.go lines 28-108). `keys` are the accounts of the keyring, `sign` the
signature (`none` when it fails), `unprotected` allows transactions without a chain. The node is one that may
use its keys over an open connection (lines 29-32). -/
def sendTx (up : List Nat → Nat → Bool) (H : Tx → List Nat) (n : Node) (keys : List (List Nat))
    (sign : List Nat → Tx → Option (Int × Int × Int)) (unprotected : Bool) (isProtected : Tx → Bool) (a : Args) :
    Option Sent :=
  let who := a.sender.getD (List.replicate 20 0)
  if who ∈ keys then
    if a.chain.isSome && decide (a.chain ≠ some n.chain) then none
    else match setDefaults n a with
      | none => none
      | some a =>
        match sign who (asTx (toData up a)) with
        | none => none
        | some sig =>
          post up H unprotected isProtected (withSignature (asTx (toData up a)) sig)
  else none

/-- `SendRawTransaction` (call_tx.go lines 98-152), for a transaction that decodes. -/
def sendRaw (up : List Nat → Nat → Bool) (H : Tx → List Nat) (unprotected : Bool) (isProtected : Tx → Bool) (tx : Tx) :
    Option Sent :=
  if !unprotected && !isProtected tx then none
  else match fromTx up H tx with
    | .ok m => if basic H m then some ⟨m, H (asTx m.data)⟩ else none
    | _ => none

/-! ## The next nonce -/

/-- A message of a pending transaction: of Ethereum, with its sender (`none` if it cannot be recovered) and
its nonce, or another one, signed by an account with a sequence number. -/
inductive PMsg
  | eth (sender : Option Nat) (nonce : Nat)
  | other (signer : Nat) (nonce : Nat)
  deriving DecidableEq, Repr

/-- How many pending transactions CometBFT gives when no limit is asked for (`UnconfirmedTxs(ctx, nil)`,
chain_info.go line 142): its `defaultPerPage`. -/
def perPage : Nat := 30

/-- The messages of a transaction (utils.go lines 84-98): `break` at the first of another kind. -/
def countMsgs (who : Nat) : List PMsg → Nat
  | [] => 0
  | .other _ _ :: _ => 0
  | .eth s _ :: ms => (if s = some who then 1 else 0) + countMsgs who ms

/-- `getAccountNonce` with pending transactions (utils.go lines 49-102); `seq` is the account's sequence
number, `none` if there is no account. -/
def pendingNonce (who : Nat) (seq : Option Nat) (pool : List (List PMsg)) : Nat :=
  match seq with
  | none => 0
  | some q => q + ((pool.take perPage).map (countMsgs who)).sum

/-! ## Resending -/

/-- `UnwrapEthereumMsg` with the zero hash (/repo/helios-chain/x/evm/types/utils.go lines 92-113): the
messages of a pending transaction by their hashes; `none` in the list for another kind. -/
def unwrapZero : List (Option (List Nat)) → Bool
  | [] => false
  | none :: _ => false
  | some h :: hs => decide (h = List.replicate 32 0) || unwrapZero hs

/-- `Resend` (call_tx.go lines 28-95): is a pending transaction found? `same` compares it with the one
asked for. -/
def resendFinds (same : List (Option (List Nat)) → Bool) (pool : List (List (Option (List Nat)))) : Bool :=
  pool.any fun t => unwrapZero t && same t

end Send
