/-!
# Go's `encoding/binary` varints

`binary.PutUvarint` / `binary.PutVarint` as byte lists (Go standard library; used by
`/repo/helios-chain/memiavl/node.go` 147-155, `mem_node.go` 203-211, `proof.go` 150-154).
-/
namespace Varint

/-- `binary.PutUvarint`: seven bits per byte, low group first, high bit set on all but the last. -/
def putUvarint (x : Nat) : List UInt8 :=
  if x < 128 then [UInt8.ofNat x] else UInt8.ofNat (x % 128 + 128) :: putUvarint (x / 128)
termination_by x
decreasing_by omega

/-- `binary.PutVarint` on a non-negative number: zig-zag maps it to `2 * x`. -/
def putVarint (x : Nat) : List UInt8 := putUvarint (2 * x)

/-- `binary.Uvarint` on a byte list, without the 64-bit overflow check: value and rest. -/
def getUvarint : List UInt8 → Option (Nat × List UInt8)
  | [] => none
  | b :: bs =>
    if b.toNat < 128 then some (b.toNat, bs)
    else match getUvarint bs with
      | none => none
      | some (v, rest) => some (b.toNat - 128 + 128 * v, rest)

theorem getUvarint_put (x : Nat) (rest : List UInt8) : getUvarint (putUvarint x ++ rest) = some (x, rest) := by
  induction x using Nat.strongRecOn with
  | ind x ih =>
    unfold putUvarint
    split
    · rename_i h
      simp only [List.cons_append, List.nil_append, getUvarint, UInt8.toNat_ofNat']
      rw [Nat.mod_eq_of_lt (by omega)]; simp [h]
    · rename_i h
      have h1 : (x % 128 + 128) % 256 = x % 128 + 128 := by omega
      have h2 := ih (x / 128) (by omega)
      simp only [List.cons_append, getUvarint, UInt8.toNat_ofNat', h1, h2, Nat.reducePow]
      rw [if_neg (by omega)]
      simp only [Option.some.injEq, Prod.mk.injEq, and_true]
      omega

theorem putUvarint_inj {x y : Nat} {a b : List UInt8} (h : putUvarint x ++ a = putUvarint y ++ b) :
    x = y ∧ a = b := by
  have h1 := getUvarint_put x a
  rw [h, getUvarint_put] at h1
  simp only [Option.some.injEq, Prod.mk.injEq] at h1
  exact ⟨h1.1.symm, h1.2.symm⟩

theorem putVarint_inj {x y : Nat} {a b : List UInt8} (h : putVarint x ++ a = putVarint y ++ b) :
    x = y ∧ a = b := by
  have := putUvarint_inj h
  exact ⟨by omega, this.2⟩

theorem putUvarint_ne_nil (x : Nat) : putUvarint x ≠ [] := by
  unfold putUvarint; split <;> simp

/-- `EncodeBytes` (`/repo/helios-chain/memiavl/mem_node.go` 203-211): uvarint length, then the bytes. -/
def encodeBytes (bz : List UInt8) : List UInt8 := putUvarint bz.length ++ bz

theorem encodeBytes_inj {x y a b : List UInt8} (h : encodeBytes x ++ a = encodeBytes y ++ b) :
    x = y ∧ a = b := by
  simp only [encodeBytes, List.append_assoc] at h
  obtain ⟨h1, h2⟩ := putUvarint_inj h
  exact List.append_inj h2 h1

theorem encodeBytes_inj' {x y : List UInt8} (h : encodeBytes x = encodeBytes y) : x = y :=
  (encodeBytes_inj (a := []) (b := []) (by simpa using h)).1

end Varint
