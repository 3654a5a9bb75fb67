import Verif.Typed.BindLemmas
/-!
# A small world in which the theorems on typed data can be seen at work

The hash is a remainder, given on a table of strings only, on which it has no collision.  The table holds all strings that
are hashed for the example's transactions, each as its length and the number that its bytes are.
-/
namespace Typed

/-- The modulus. -/
def toyMod : Nat := 1000000000000000003

/-- The strings. -/
def toyTable : List (Nat × Nat) := 
  [(93, 0x454950373132446f6d61696e28737472696e67206e616d652c737472696e672076657273696f6e2c75696e7432353620636861696e49642c737472696e6720766572696679696e67436f6e74726163742c737472696e672073616c7429),
   (11, 0x436f736d6f732057656233),
   (5, 0x312e302e30),
   (6, 0x636f736d6f73),
   (1, 0x30),
   (192, 0x58578916374f499000000000000000000000000000000000000000000000000070197f8536a5b69000000000000000000000000000000000000000000000000000005f497d597d5000000000000000000000000000000000000000000000000000000000000a410000000000000000000000000000000000000000000000000000c0a7efa407ef300000000000000000000000000000000000000000000000000000000000005d1),
   (240, 0x547828737472696e67206163636f756e745f6e756d6265722c737472696e6720636861696e5f69642c466565206665652c737472696e67206d656d6f2c737472696e672073657175656e63652c5479706553656e6430206d73673029436f696e28737472696e672064656e6f6d2c737472696e6720616d6f756e742946656528436f696e5b5d20616d6f756e742c737472696e6720676173295479706553656e6430285479706556616c7565302076616c75652c737472696e672074797065295479706556616c75653028626f6f6c20757267656e742c696e7436345b5d206c6973742c737472696e672066726f6d29),
   (1, 0x37),
   (14, 0x68656c696f735f34323030302d31),
   (61, 0x46656528436f696e5b5d20616d6f756e742c737472696e672067617329436f696e28737472696e672064656e6f6d2c737472696e6720616d6f756e7429),
   (32, 0x436f696e28737472696e672064656e6f6d2c737472696e6720616d6f756e7429),
   (7, 0x6168656c696f73),
   (1, 0x35),
   (96, 0x36b28e4d74cbeaa0000000000000000000000000000000000000000000000000bcba44820c47ef4000000000000000000000000000000000000000000000000000000000000066c),
   (32, 0x27642fe5cf03d97),
   (5, 0x3231303030),
   (96, 0xbb52285f181a08c00000000000000000000000000000000000000000000000006ee8b4afc23755a00000000000000000000000000000000000000000000000000000613f4d5d5d5),
   (2, 0x6869),
   (1, 0x33),
   (87, 0x5479706553656e6430285479706556616c7565302076616c75652c737472696e672074797065295479706556616c75653028626f6f6c20757267656e742c696e7436345b5d206c6973742c737472696e672066726f6d29),
   (48, 0x5479706556616c75653028626f6f6c20757267656e742c696e7436345b5d206c6973742c737472696e672066726f6d29),
   (64, 0x10000000000000000000000000000000000000000000000000000000000000002),
   (1, 0x78),
   (128, 0xd7657181828a0300000000000000000000000000000000000000000000000000000000000000001000000000000000000000000000000000000000000000000091b0bac5971e4c00000000000000000000000000000000000000000000000000000000000000e89),
   (9, 0x62616e6b2f53656e64),
   (96, 0x380fcb49d0d709b00000000000000000000000000000000000000000000000000f357d8625b44be0000000000000000000000000000000000000000000000000bc8d663b37dcadf),
   (224, 0x362215148a05e8400000000000000000000000000000000000000000000000000000000000006aa0000000000000000000000000000000000000000000000000d880a3ffaf980a2000000000000000000000000000000000000000000000000036faaf951d189fb00000000000000000000000000000000000000000000000000000000000ca4b9000000000000000000000000000000000000000000000000000000000000062e0000000000000000000000000000000000000000000000000129e102dcd4fdd7),
   (64, 0x10000000000000000000000000000000000000000000000000000000000000003),
   (128, 0xd7657181828a0300000000000000000000000000000000000000000000000000000000000000001000000000000000000000000000000000000000000000000091b0bac5971e4df0000000000000000000000000000000000000000000000000000000000000e89),
   (96, 0x380fcb49d0d709b00000000000000000000000000000000000000000000000005ab7bae2355e8800000000000000000000000000000000000000000000000000bc8d663b37dcadf),
   (224, 0x362215148a05e8400000000000000000000000000000000000000000000000000000000000006aa0000000000000000000000000000000000000000000000000d880a3ffaf980a2000000000000000000000000000000000000000000000000036faaf951d189fb00000000000000000000000000000000000000000000000000000000000ca4b9000000000000000000000000000000000000000000000000000000000000062e000000000000000000000000000000000000000000000000018f31cb5e314fab),
   (242, 0x547828737472696e67206163636f756e745f6e756d6265722c737472696e6720636861696e5f69642c466565206665652c737472696e67206d656d6f2c4d73675b5d206d7367732c737472696e672073657175656e636529436f696e28737472696e672064656e6f6d2c737472696e6720616d6f756e742946656528737472696e672066656550617965722c436f696e5b5d20616d6f756e742c737472696e6720676173294d736728737472696e6720747970652c4d736756616c75652076616c7565294d736756616c756528737472696e672066726f6d2c696e7436345b5d206c6973742c626f6f6c20757267656e7429),
   (77, 0x46656528737472696e672066656550617965722c436f696e5b5d20616d6f756e742c737472696e672067617329436f696e28737472696e672064656e6f6d2c737472696e6720616d6f756e7429),
   (1, 0x70),
   (128, 0xb48e3c793cb4d500000000000000000000000000000000000000000000000000000000000000d9100000000000000000000000000000000000000000000000006ee8b4afc23755a00000000000000000000000000000000000000000000000000000613f4d5d5d5),
   (77, 0x4d736728737472696e6720747970652c4d736756616c75652076616c7565294d736756616c756528737472696e672066726f6d2c696e7436345b5d206c6973742c626f6f6c20757267656e7429),
   (46, 0x4d736756616c756528737472696e672066726f6d2c696e7436345b5d206c6973742c626f6f6c20757267656e7429),
   (128, 0x3c5180309c8a32a0000000000000000000000000000000000000000000000000000000000000e89000000000000000000000000000000000000000000000000091b0bac5971e4c00000000000000000000000000000000000000000000000000000000000000001),
   (96, 0xd1c333fb1181b6d0000000000000000000000000000000000000000000000000bc8d663b37dcadf0000000000000000000000000000000000000000000000000259eae4ca59b15f),
   (32, 0x50b10104bb21901),
   (224, 0xbbc2e3cc19cd24500000000000000000000000000000000000000000000000000000000000006aa0000000000000000000000000000000000000000000000000d880a3ffaf980a20000000000000000000000000000000000000000000000000ae145f773d0701100000000000000000000000000000000000000000000000000000000000ca4b900000000000000000000000000000000000000000000000003af1840f945071e000000000000000000000000000000000000000000000000000000000000062e),
   (1, 0x71),
   (128, 0xb48e3c793cb4d500000000000000000000000000000000000000000000000000000000000000db000000000000000000000000000000000000000000000000006ee8b4afc23755a00000000000000000000000000000000000000000000000000000613f4d5d5d5),
   (224, 0xbbc2e3cc19cd24500000000000000000000000000000000000000000000000000000000000006aa0000000000000000000000000000000000000000000000000d880a3ffaf980a200000000000000000000000000000000000000000000000009ff558f3ba3ac8300000000000000000000000000000000000000000000000000000000000ca4b900000000000000000000000000000000000000000000000003af1840f945071e000000000000000000000000000000000000000000000000000000000000062e)]

/-- The hash. -/
def toyHash (x : Bytes) : Option Bytes :=
  if (x.length, Bytes.unbe x) ∈ toyTable then some (word (((31 * Bytes.unbe x + x.length) % toyMod : Nat) : Int)) else none

/-- One text that stands for a number. -/
def toyNumber (s : Bytes) : Option Int := if s = txt "2" then some 2 else none

/-- One chain. -/
def toyChain (s : Bytes) : Option Int := if s = txt "helios_42000-1" then some 42000 else none

/-- The table of the older form. -/
def toyReflect : Types :=
  [(txt "EIP712Domain", domainFields), (txt "Tx", oldTxFields), (txt "Fee", oldFeeFields),
   (txt "Coin", [⟨txt "denom", txt "string"⟩, ⟨txt "amount", txt "string"⟩]),
   (txt "Msg", [⟨txt "type", txt "string"⟩, ⟨txt "value", txt "MsgValue"⟩]),
   (txt "MsgValue", [⟨txt "from", txt "string"⟩, ⟨txt "list", txt "int64[]"⟩, ⟨txt "urgent", txt "bool"⟩])]

/-- The small world. -/
def toyEnv : Env := ⟨toyHash, toyNumber, toyChain, fun _ => some toyReflect⟩

/-- A message with a list of the number 1 and another value. -/
def toyMsg (v : J) : J :=
  .obj [(txt "type", .str (txt "bank/Send")),
    (txt "value", .obj [(txt "from", .str (txt "x")), (txt "list", .arr [.num 1, v]), (txt "urgent", .bool true)])]

/-- A transaction with this message. -/
def toyTx (v : J) : SignDoc :=
  { chainId := txt "helios_42000-1", account := 7, msgs := [toyMsg v], memo := txt "hi", timeout := 0, options := 0,
    nonCritical := 0, signers := [⟨[1], 1, 3⟩], amount := [(txt "ahelios", 5)], gas := 21000, payer := [], granter := [] }

/-- Its document. -/
def toyDoc (v : J) : List (Bytes × J) :=
  stdDoc (txt "helios_42000-1") 7 3 0 [(txt "ahelios", 5)] 21000 [toyMsg v] (txt "hi")

theorem toy_noCollision : NoCollision toyHash := by
  have key : ∀ a ∈ toyTable, ∀ b ∈ toyTable, (31 * a.2 + a.1) % toyMod = (31 * b.2 + b.1) % toyMod → a = b := by decide +kernel
  have small : ∀ n : Nat, n % toyMod < 2 ^ 256 := fun n =>
    Nat.lt_of_lt_of_le (Nat.mod_lt n (by decide)) (by decide +kernel)
  intro x y h hx hy
  unfold toyHash at hx hy
  split at hx
  · rename_i mx
    split at hy
    · rename_i my
      have e := (Option.some.inj hx).trans (Option.some.inj hy).symm
      unfold word at e
      have conv : ∀ n : Nat, n < 2 ^ 256 → ((n : Int) % (2 ^ 256 : Int)).toNat = n := by
        intro n hn
        rw [Int.emod_eq_of_lt (Int.natCast_nonneg n) (by exact_mod_cast hn), Int.toNat_natCast]
      rw [conv _ (small _), conv _ (small _)] at e
      have e2 := Bytes.be_inj (small _) (small _) e
      have e3 := key _ mx _ my e2
      have l := congrArg Prod.fst e3
      have v := congrArg Prod.snd e3
      dsimp only at l v
      rw [← Bytes.be_unbe x, ← Bytes.be_unbe y, l, v]
    · cases hy
  · cases hx

theorem toy_wide : Wide toyHash := by
  intro x h hx
  unfold toyHash at hx
  split at hx
  · cases hx
    exact Bytes.be_length _ _
  · cases hx

theorem toy_good : toyEnv.Good := by
  refine ⟨toy_noCollision, toy_wide, ?_⟩
  intro d ts h
  cases h
  refine ⟨?_, by decide +kernel⟩
  unfold CleanTable Clean
  decide +kernel

theorem toyMsg_good (v : J) (hc : Canon v) (hk : CleanKeys v) : GoodMsgs [toyMsg v] := by
  intro m hm
  rw [List.mem_singleton.1 hm]
  have inner : ∀ k u, (k, u) ∈ [(txt "from", J.str (txt "x")), (txt "list", .arr [.num 1, v]), (txt "urgent", .bool true)] →
      Canon u ∧ CleanKeys u ∧ Clean k := by
    intro k u h
    rcases List.mem_cons.1 h with h | h
    · cases h; exact ⟨.str _, .str _, by unfold Clean; decide⟩
    rcases List.mem_cons.1 h with h | h
    · cases h
      refine ⟨.arr _ ?_, .arr _ ?_, by unfold Clean; decide⟩
      · intro w hw
        rcases List.mem_cons.1 hw with rfl | hw
        · exact .num _
        · rw [List.mem_singleton.1 hw]; exact hc
      · intro w hw
        rcases List.mem_cons.1 hw with rfl | hw
        · exact .num _
        · rw [List.mem_singleton.1 hw]; exact hk
    · cases List.mem_singleton.1 h; exact ⟨.bool _, .bool _, by unfold Clean; decide⟩
  have outer : ∀ k u, (k, u) ∈ [(txt "type", J.str (txt "bank/Send")),
      (txt "value", .obj [(txt "from", J.str (txt "x")), (txt "list", .arr [.num 1, v]), (txt "urgent", .bool true)])] →
      Canon u ∧ CleanKeys u ∧ Clean k := by
    intro k u h
    rcases List.mem_cons.1 h with h | h
    · cases h; exact ⟨.str _, .str _, by unfold Clean; decide⟩
    · cases List.mem_singleton.1 h
      refine ⟨.obj _ ?_ (fun k u h => (inner k u h).1),
        .obj _ (fun k u h => (inner k u h).2.2) (fun k u h => (inner k u h).2.1), by unfold Clean; decide⟩
      refine (List.pairwise_map (f := fun e : Bytes × J => e.1) (R := fun a b => ble b a = false)).1 ?_
      show [txt "from", txt "list", txt "urgent"].Pairwise (fun a b => ble b a = false)
      decide +kernel
  refine ⟨.obj _ ?_ (fun k u h => (outer k u h).1),
    .obj _ (fun k u h => (outer k u h).2.2) (fun k u h => (outer k u h).2.1)⟩
  refine (List.pairwise_map (f := fun e : Bytes × J => e.1) (R := fun a b => ble b a = false)).1 ?_
  show [txt "type", txt "value"].Pairwise (fun a b => ble b a = false)
  decide +kernel

theorem toyDoc_orderly (v : J) (hc : Canon v) (hk : CleanKeys v) : Orderly (toyDoc v) :=
  stdDoc_orderly (toyMsg_good v hc hk)

end Typed
