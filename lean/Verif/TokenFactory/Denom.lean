/-!
# Denominations of the token factory (`x/tokenfactory/types/denoms.go`)

A Go string is a list of bytes, here written as a list of characters; all strings that pass the checks are ASCII.
-/
namespace TokenFactory

abbrev Str := List Char

/-- `strings.Split(s, "/")`. -/
def split : Str → List Str
  | [] => [[]]
  | c :: cs =>
    if c = '/' then [] :: split cs
    else match split cs with
      | [] => [[c]]
      | p :: ps => (c :: p) :: ps

/-- `strings.Join(parts, "/")`. -/
def join : List Str → Str
  | [] => []
  | [p] => p
  | p :: ps => p ++ '/' :: join ps

/-- The address codec of the SDK: `AccAddressFromBech32` and `AccAddress.String()`. Decoding accepts several spellings of an
address (Bech32 may be written in upper case); what is used of it are the three laws. Addresses are numbers. -/
structure Codec where
  decode : Str → Option Nat
  encode : Nat → Str
  decode_encode : ∀ a, decode (encode a) = some a
  no_slash : ∀ a, '/' ∉ encode a
  decode_nil : decode [] = none

def isLetter (c : Char) : Bool := (decide ('a' ≤ c) && decide (c ≤ 'z')) || (decide ('A' ≤ c) && decide (c ≤ 'Z'))
def isDigit (c : Char) : Bool := decide ('0' ≤ c) && decide (c ≤ '9')

/-- A character allowed after the first one. -/
def denomChar (c : Char) : Bool := isLetter c || isDigit c || c == '/' || c == ':' || c == '.' || c == '_' || c == '-'

/-- `sdk.ValidateDenom`: the expression `[a-zA-Z][a-zA-Z0-9/:._-]{2,127}` of the SDK. -/
def validateDenom : Str → Bool
  | [] => false
  | c :: cs => isLetter c && cs.all denomChar && decide (2 ≤ cs.length) && decide (cs.length ≤ 127)

/-- `ModuleDenomPrefix` (denoms.go 13). -/
def factory : Str := ['f', 'a', 'c', 't', 'o', 'r', 'y']

/-- `GetTokenDenom` (denoms.go 28-59), with `MaxSubdenomLength` 44 and `MaxCreatorLength` 75. An error is `none`. -/
def getTokenDenom (k : Codec) (creator subdenom : Str) : Option Str :=
  if 44 < subdenom.length then none
  else if subdenom.length < 1 then none
  else if (split subdenom).any (fun p => decide (p.length < 1)) then none
  else if 75 < creator.length then none
  else if creator.contains '/' || decide (creator.length < 1) then none
  else match k.decode creator with
    | none => none
    | some a =>
      let denom := join [factory, k.encode a, subdenom]
      if validateDenom denom then some denom else none

/-- `DeconstructDenom` (denoms.go 64-103): the two length checks on the parts come to one. -/
def deconstruct (k : Codec) (denom : Str) : Option (Str × Str) :=
  if validateDenom denom then
    match split denom with
    | pre :: creator :: p :: ps =>
      if pre = factory then
        match k.decode creator with
        | none => none
        | some a =>
          if p.length < 1 then none
          else if (p :: ps).any (fun q => decide (q.length < 1)) then none
          else some (k.encode a, join (p :: ps))
      else none
    | _ => none
  else none

end TokenFactory
