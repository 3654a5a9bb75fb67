/-!
# Lists of governance proposals

`GetProposalsByPageAndSize` and its version with a filter (rpc/backend/proposals_info.go). The queries to the gov
module, which is not in the repository, are one parameter: from a request to an error (of the query for proposals or
the one for parameters) or a list of proposals. That the order is reversed is the same in all requests and left out.
Of the messages in a proposal only what decides the way through ParseProposal is modelled: decoding and the JSON codec
are not in the repository. The fields that are copied are left out.

Characters are their codes: `&` 38, `=` 61.
-/

namespace ProposalList

/-- A request to the gov module (proposals_info.go 144-150, 267-273); 0 as status and none as address are no filter. -/
structure Request where
  offset : Nat
  limit : Nat
  status : Int
  proposer : Option Nat
  depositor : Option Nat
  voter : Option Nat
  deriving DecidableEq

/-- `strings.Split` with a separator of one character. -/
def split (sep : Nat) : List Nat → List (List Nat)
  | [] => [[]]
  | c :: cs =>
    if c = sep then [] :: split sep cs
    else match split sep cs with
      | [] => [[c]]
      | p :: ps => (c :: p) :: ps

/-- Digits to the base 10, from the left. -/
def number : Nat → List Nat → Option Nat
  | acc, [] => some acc
  | acc, c :: cs => if 48 ≤ c ∧ c ≤ 57 then number (acc * 10 + (c - 48)) cs else none

/-- `strconv.ParseUint(s, 10, 32)`. -/
def parseUint32 (s : List Nat) : Option Nat :=
  if s = [] then none
  else match number 0 s with
    | some n => if n < 4294967296 then some n else none
    | none => none

/-- A 32-bit number as the signed number of the enumeration (proposals_info.go 286). -/
def toInt32 (n : Nat) : Int := if n < 2147483648 then n else (n : Int) - 4294967296

/-- `status`. -/
def kStatus : List Nat := [115, 116, 97, 116, 117, 115]
/-- `proposer`. -/
def kProposer : List Nat := [112, 114, 111, 112, 111, 115, 101, 114]
/-- `depositor`. -/
def kDepositor : List Nat := [100, 101, 112, 111, 115, 105, 116, 111, 114]
/-- `voter`. -/
def kVoter : List Nat := [118, 111, 116, 101, 114]
/-- `title-matches`. -/
def kTitle : List Nat := [116, 105, 116, 108, 101, 45, 109, 97, 116, 99, 104, 101, 115]
/-- `description-matches`. -/
def kDescription : List Nat :=
  [100, 101, 115, 99, 114, 105, 112, 116, 105, 111, 110, 45, 109, 97, 116, 99, 104, 101, 115]

/-- A part of the filter (proposals_info.go 276-301). The texts for title and description are kept in the filter, but
the request does not contain them and nothing else reads them. `addr` reads an address. -/
def part (addr : List Nat → Nat) (r : Request) (p : List Nat) : Request :=
  match split 61 p with
  | [k, v] =>
    if k = kStatus then
      match parseUint32 v with
      | none => r
      | some n => { r with status := toInt32 n }
    else if k = kProposer then { r with proposer := some (addr v) }
    else if k = kDepositor then { r with depositor := some (addr v) }
    else if k = kVoter then { r with voter := some (addr v) }
    else r
  | _ => r

/-- The offset (proposals_info.go 146, 269), in 64 bits. -/
def offset (page size : Nat) : Nat := (page + 18446744073709551615) % 18446744073709551616 * size % 18446744073709551616

/-- The request without a filter (proposals_info.go 144-150). -/
def plain (page size : Nat) : Request :=
  { offset := offset page size, limit := size, status := 0, proposer := none, depositor := none, voter := none }

/-- The request with a filter (proposals_info.go 260-302). -/
def request (addr : List Nat → Nat) (page size : Nat) (filter : List Nat) : Request :=
  (split 38 filter).foldl (part addr) (plain page size)

/-- The field `msg` of a content written as JSON (proposals_info.go 77-79): missing or null, a text (empty, one that is
a JSON object, or one that is not), or another value. -/
inductive Field where
  | missing
  | empty
  | object
  | noObject
  | noText
  deriving DecidableEq

/-- What becomes of a message read as a legacy content (proposals_info.go 44-74): it cannot be decoded, it cannot be
written as JSON (with or without a content in it), or it is written, with a content that is an object or is not (as
`null` is not). -/
inductive Message where
  | undecodable
  | unwritable (content : Bool)
  | noContent
  | content (msg : Field)
  deriving DecidableEq

/-- An entry in the details (proposals_info.go 49-90). -/
inductive Detail where
  | unknown
  | error
  | asWritten
  | msgReplaced
  deriving DecidableEq

/-- One message (proposals_info.go 44-91); none is a panic: the type of a missing content (59, 69), a content that is
no object (74), or a `msg` that is no text (77). -/
def detail : Message → Option Detail
  | .undecodable => some .unknown
  | .unwritable c => if c then some .error else none
  | .noContent => none
  | .content .missing => some .asWritten
  | .content .empty => some .asWritten
  | .content .object => some .msgReplaced
  | .content .noObject => some .error
  | .content .noText => none

/-- The loop over the messages (proposals_info.go 42-91). -/
def details : List Message → List Detail → Option (List Detail)
  | [], acc => some acc
  | m :: ms, acc =>
    match detail m with
    | none => none
    | some d => details ms (acc ++ [d])

/-- A proposal: its messages, whether its proposer can be read, and whether its times of voting are set (they are not while deposits
are collected). -/
structure Proposal where
  id : Nat
  readable : Bool
  voting : Bool
  messages : List Message
  deriving DecidableEq

inductive Answer where
  | shown (page : List (Nat × List Detail))
  | fails
  | panics
  deriving DecidableEq

/-- The loop over the proposals (proposals_info.go 162-168, 317-323) with ParseProposal (28-140): those with an
unreadable proposer are left out (38-41), missing times are dereferenced (132-133). The time of submission and the
tallies, which are dereferenced as well, are taken to be set. -/
def format : List Proposal → List (Nat × List Detail) → Answer
  | [], acc => .shown acc
  | p :: ps, acc =>
    if !p.readable then format ps acc
    else match details p.messages [] with
      | none => .panics
      | some ds => if !p.voting then .panics else format ps (acc ++ [(p.id, ds)])

/-- The method (proposals_info.go 250-325). -/
def list (addr : List Nat → Nat) (gov : Request → Option (List Proposal)) (page size : Nat) (filter : List Nat) : Answer :=
  match gov (request addr page size filter) with
  | none => .fails
  | some ps => format ps []

/-- The method without a filter (proposals_info.go 142-170). -/
def listAll (gov : Request → Option (List Proposal)) (page size : Nat) : Answer :=
  match gov (plain page size) with
  | none => .fails
  | some ps => format ps []

end ProposalList
