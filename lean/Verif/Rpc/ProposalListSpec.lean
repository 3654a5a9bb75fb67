import Verif.Rpc.ProposalList
/-!
# What filters say
-/

namespace ProposalList

/-- The value of a decimal text: the last digit counts once, the one before ten times, and so on. -/
def value : List Nat → Nat
  | [] => 0
  | c :: cs => (c - 48) * 10 ^ cs.length + value cs

/-- A decimal text. -/
def Decimal (s : List Nat) : Prop := s ≠ [] ∧ ∀ c ∈ s, 48 ≤ c ∧ c ≤ 57

/-- A text without the two characters that filters are made with. -/
def Plain (s : List Nat) : Prop := ∀ c ∈ s, c ≠ 38 ∧ c ≠ 61

instance (s : List Nat) : Decidable (Plain s) := inferInstanceAs (Decidable (∀ c ∈ s, c ≠ 38 ∧ c ≠ 61))

/-- Messages that a page cannot show: no content, or a `msg` that is no text. -/
def Bad (m : Message) : Prop := m = .unwritable false ∨ m = .noContent ∨ m = .content .noText

/-- What is shown for the others. -/
def shownAs (m : Message) : Detail :=
  if m = .undecodable then .unknown
  else if m = .unwritable true ∨ m = .content .noObject then .error
  else if m = .content .object then .msgReplaced
  else .asWritten

/-- A proposal that a page can show: past the collection of deposits and without bad messages. -/
def Showable (p : Proposal) : Prop := p.voting = true ∧ ∀ m ∈ p.messages, ¬ Bad m

/-- The entry of a proposal on a page. -/
def entry (p : Proposal) : Nat × List Detail := (p.id, p.messages.map shownAs)

/-- `key=value`. -/
def pair (k v : List Nat) : List Nat := k ++ 61 :: v

/-- `key=value&key=value&…`. -/
def join : List (List Nat × List Nat) → List Nat
  | [] => []
  | [e] => pair e.1 e.2
  | e :: es => pair e.1 e.2 ++ 38 :: join es

/-- The last value given for a key. -/
def lastOf (key : List Nat) : List (List Nat × List Nat) → Option (List Nat)
  | [] => none
  | e :: es =>
    match lastOf key es with
    | some v => some v
    | none => if e.1 = key then some e.2 else none

end ProposalList
