import Verif.Typed.Data
/-!
# What a signature over typed data should fix

Whoever signs typed data signs one value: two values with the same bytes to sign are the same value.  The comparison of
values is independent of the model's encoding.
-/
namespace Typed

/-- There is no collision among the strings on which the hash is given. -/
def NoCollision (K : Bytes → Option Bytes) : Prop := ∀ x y h, K x = some h → K y = some h → x = y

/-- Hashes have 32 bytes. -/
def Wide (K : Bytes → Option Bytes) : Prop := ∀ x h, K x = some h → h.length = 32

/-- A name without the characters that structure a type's text: space, `(`, `)` and `,`. -/
def Clean (s : Bytes) : Prop := ∀ c ∈ s, c ≠ 0x20 ∧ c ≠ 0x28 ∧ c ≠ 0x29 ∧ c ≠ 0x2c

/-- A table of types in which each type's fields have distinct, clean names. -/
def CleanTable (ts : Types) : Prop :=
  ∀ e ∈ ts, (e.2.map Field.name).Nodup ∧ ∀ f ∈ e.2, Clean f.name

/-- Two values are alike: the same lists, and objects with the same keys, of alike values, down to the same leaves;
except that text which `pb` reads as a number is not told from that number. -/
inductive Alike (pb : Bytes → Option Int) : J → J → Prop where
  | null : Alike pb .null .null
  | bool (b : Bool) : Alike pb (.bool b) (.bool b)
  | str (s : Bytes) : Alike pb (.str s) (.str s)
  | int (v v' : J) (n : Int) (h : v = .num n ∨ ∃ s, v = .str s ∧ pb s = some n)
      (h' : v' = .num n ∨ ∃ s, v' = .str s ∧ pb s = some n) : Alike pb v v'
  | arr (l l' : List J) (hl : l.length = l'.length)
      (h : ∀ (i : Nat) (v v' : J), l[i]? = some v → l'[i]? = some v' → Alike pb v v') : Alike pb (.arr l) (.arr l')
  | obj (l l' : List (Bytes × J)) (hk : ∀ k, (KV.get l k).isSome = (KV.get l' k).isSome)
      (h : ∀ k v v', KV.get l k = some v → KV.get l' k = some v' → Alike pb v v') : Alike pb (.obj l) (.obj l')

/-- Each object within a value has its keys in strictly ascending order, as in the JSON of a document to sign. -/
inductive Canon : J → Prop where
  | null : Canon .null
  | bool (b : Bool) : Canon (.bool b)
  | num (n : Int) : Canon (.num n)
  | str (s : Bytes) : Canon (.str s)
  | arr (l : List J) (h : ∀ v ∈ l, Canon v) : Canon (.arr l)
  | obj (l : List (Bytes × J)) (hs : l.Pairwise (fun a b => ble b.1 a.1 = false)) (h : ∀ k v, (k, v) ∈ l → Canon v) :
      Canon (.obj l)

end Typed
