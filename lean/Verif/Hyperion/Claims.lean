import Verif.Hyperion.Keys
/-!
# Claims about the counterparty chain and their hashes

Models the four claim messages (`proto/helios/hyperion/v1/msgs.proto` 429-552), the checks of `ValidateBasic` that matter
for the hash, and the strings hashed by `ClaimHash` (`helios-chain/x/hyperion/types/msgs.go` 426-429, 454-457, 551-554,
615-618).  `tmhash.Sum` is a parameter wherever it is needed.  The RPC address a claim names is left out.
-/
namespace Hyperion

/-- One digit as a character. -/
def digit (n : Nat) : UInt8 := UInt8.ofNat (48 + n)

/-- Decimal digits, at most `fuel` of them. -/
def decAux : Nat → Nat → Str
  | 0, _ => []
  | fuel + 1, n => if n < 10 then [digit n] else decAux fuel (n / 10) ++ [digit (n % 10)]

/-- `%d` of a `uint64`. -/
def dec (n : Nat) : Str := decAux (n + 1) n

/-- `math.Int.String()`. -/
def decInt : Int → Str
  | .ofNat n => dec n
  | .negSucc n => 0x2d :: dec (n + 1)

/-- `"/"`. -/
def slash : UInt8 := 0x2f

/-- `types.BridgeValidator`. -/
structure Member where
  power : Nat
  addr : Str
  deriving DecidableEq, Repr

/-- The messages `MsgDepositClaim`, `MsgWithdrawClaim`, `MsgERC20DeployedClaim`, `MsgValsetUpdatedClaim`. -/
inductive Claim where
  | deposit (hid nonce height : Nat) (token : Str) (amount : Int) (sender receiver data txHash : Str) (orch : Nat)
  | withdraw (hid nonce height batch : Nat) (token txHash : Str) (orch : Nat)
  | deployed (hid nonce height : Nat) (denom token name symbol : Str) (decimals orch : Nat)
  | valset (hid nonce valsetNonce height : Nat) (members : List Member) (reward : Int) (rewardToken : Str) (orch : Nat)
  deriving DecidableEq, Repr

namespace Claim

/-- `GetHyperionId`. -/
def hid : Claim → Nat
  | .deposit h _ _ _ _ _ _ _ _ _ => h
  | .withdraw h _ _ _ _ _ _ => h
  | .deployed h _ _ _ _ _ _ _ _ => h
  | .valset h _ _ _ _ _ _ _ => h

/-- `GetEventNonce`. -/
def nonce : Claim → Nat
  | .deposit _ n _ _ _ _ _ _ _ _ => n
  | .withdraw _ n _ _ _ _ _ => n
  | .deployed _ n _ _ _ _ _ _ _ => n
  | .valset _ n _ _ _ _ _ _ => n

/-- `GetBlockHeight`. -/
def height : Claim → Nat
  | .deposit _ _ b _ _ _ _ _ _ _ => b
  | .withdraw _ _ b _ _ _ _ => b
  | .deployed _ _ b _ _ _ _ _ _ => b
  | .valset _ _ _ b _ _ _ _ => b

/-- `GetClaimer`: the orchestrator. -/
def orch : Claim → Nat
  | .deposit _ _ _ _ _ _ _ _ _ o => o
  | .withdraw _ _ _ _ _ _ o => o
  | .deployed _ _ _ _ _ _ _ _ o => o
  | .valset _ _ _ _ _ _ _ o => o

/-- The claim is a `MsgDepositClaim`. -/
def isDeposit : Claim → Bool
  | .deposit _ _ _ _ _ _ _ _ _ _ => true
  | _ => false

end Claim

/-- The bytes of `power:`. -/
def powerTag : Str := [0x70, 0x6f, 0x77, 0x65, 0x72, 0x3a]

/-- The bytes of `ethereum_address:"`. -/
def addrTag : Str :=
  [0x65, 0x74, 0x68, 0x65, 0x72, 0x65, 0x75, 0x6d, 0x5f, 0x61, 0x64, 0x64, 0x72, 0x65, 0x73, 0x73, 0x3a, 0x22]

/-- `BridgeValidator.String()`: `proto.CompactTextString`, which leaves out fields with their zero value.  (The address is
hexadecimal, so nothing in it is quoted.) -/
def memberStr (m : Member) : Str :=
  (if m.power = 0 then [] else powerTag ++ (dec m.power ++ [0x20])) ++
    (if m.addr = [] then [] else addrTag ++ (m.addr ++ [0x22, 0x20]))

/-- `%s` of a list of members: brackets, and a space between the members. -/
def membersStr (ms : List Member) : Str := 0x5b :: ((ms.map memberStr).intersperse [0x20]).flatten ++ [0x5d]

/-- The string hashed by `ClaimHash` (msgs.go 427, 455, 552, 616). -/
def claimPath : Claim → Str
  | .deposit _ nonce height token amount sender receiver data _ _ =>
    dec nonce ++ slash :: (dec height ++ slash :: (token ++ slash :: (decInt amount ++ slash :: (sender ++ slash ::
      (receiver ++ slash :: data)))))
  | .withdraw _ nonce _ batch token _ _ =>
    token ++ slash :: (dec batch ++ slash :: (dec nonce ++ slash :: token))
  | .deployed _ nonce height denom token name symbol decimals _ =>
    dec nonce ++ slash :: (dec height ++ slash :: (denom ++ slash :: (token ++ slash :: (name ++ slash ::
      (symbol ++ slash :: dec decimals)))))
  | .valset _ nonce valsetNonce height members _ _ _ =>
    dec valsetNonce ++ slash :: (dec nonce ++ slash :: (dec height ++ slash :: (membersStr members ++ [slash])))

/-- A hexadecimal digit. -/
def isHexDigit (c : UInt8) : Bool :=
  decide (48 ≤ c ∧ c ≤ 57) || decide (65 ≤ c ∧ c ≤ 70) || decide (97 ≤ c ∧ c ≤ 102)

/-- `ValidateEthAddress` (types/ethereum.go 48-56), that is go-ethereum's `IsHexAddress`: 40 hexadecimal digits, with or
without `0x` before them. -/
def isEthAddress (a : Str) : Bool :=
  let b := match a with
    | 0x30 :: 0x78 :: r => r
    | 0x30 :: 0x58 :: r => r
    | r => r
  decide (b.length = 40) && b.all isHexDigit

/-- A character of the alphabet of account addresses: letters and digits (`AccAddressFromBech32` accepts no other). -/
def isBech32Char (c : UInt8) : Bool := decide (48 ≤ c ∧ c ≤ 57) || decide (65 ≤ c ∧ c ≤ 90) || decide (97 ≤ c ∧ c ≤ 122)

/-- What `ValidateBasic` (msgs.go 348-366, 437-451, 502-513, 562-582) checks of the fields in the hash.  That the receiver
is an account address is reduced to its alphabet. -/
def Claim.basic : Claim → Bool
  | .deposit _ nonce _ token _ sender receiver _ _ _ =>
    receiver.all isBech32Char && isEthAddress sender && isEthAddress token && decide (nonce ≠ 0)
  | .withdraw _ nonce _ batch token _ _ => decide (nonce ≠ 0) && decide (batch ≠ 0) && isEthAddress token
  | .deployed _ nonce _ _ token _ _ _ _ => isEthAddress token && decide (nonce ≠ 0)
  | .valset _ nonce _ _ members _ rewardToken _ =>
    decide (nonce ≠ 0) && isEthAddress rewardToken && members.all (fun m => isEthAddress m.addr)

end Hyperion
