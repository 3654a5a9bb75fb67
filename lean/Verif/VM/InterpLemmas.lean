import Verif.VM.Interp
import Verif.VM.GasProps
import Verif.VM.SStoreProps
import Verif.VM.AnalysisProps
/-! # What one round of the interpreter does: lemmas -/
namespace VM

/-! ### Memory -/

theorem resize_length (store : List UInt8) (size : Nat) : (resize store size).length = max store.length size := by
  unfold resize
  rw [List.length_append, List.length_replicate]
  omega

theorem memSet_length {store mem value : List UInt8} {off size : Nat} (h : memSet store off size value = some mem) : mem.length = store.length := by
  unfold memSet at h
  split at h
  · cases h; rfl
  · split at h
    · cases h
    · cases h
      rename_i h1 h2
      simp only [List.length_append, List.length_take, List.length_drop]
      omega

/-- The range lies within a memory of `L` bytes. -/
def Within (off size L : Nat) : Prop := size = 0 ∨ off + size ≤ L

theorem memSet_some {store value : List UInt8} {off size : Nat} (h : Within off size store.length) : ∃ mem, memSet store off size value = some mem := by
  unfold memSet
  split
  · exact ⟨_, rfl⟩
  · rw [if_neg (by rcases h with h | h <;> omega)]
    exact ⟨_, rfl⟩

theorem memGet_some {store : List UInt8} {off size : Nat} (h : Within off size store.length) (hb : store.length ≤ 0x1FFFFFFFE0) :
    ∃ d, memGet store off size = some d := by
  have h63 : (2 : Nat) ^ 63 = 9223372036854775808 := by decide
  unfold memGet
  split
  · exact ⟨_, rfl⟩
  · rcases h with h | h
    · omega
    · rw [if_neg (by rw [h63]; omega)]
      split
      · exact ⟨_, rfl⟩
      · exact ⟨_, rfl⟩

theorem low64_of_is64 {w : Word} (h : is64 w = true) : low64 w = w.toNat := Nat.mod_eq_of_lt (of_decide_eq_true h)

theorem within_len {o : Word} {len n L : Nat} (hl : len < 2 ^ 64) (h : calcMemSizeLen o len = some n) (hn : n ≤ L) : Within (low64 o) len L := by
  have h64 : (2 : Nat) ^ 64 = 18446744073709551616 := by decide
  unfold calcMemSizeLen add64 at h
  unfold Within low64
  rw [h64] at *
  split at h
  · left; assumption
  · split at h
    · cases h
    · split at h
      · cases h
      · cases h
        right
        rw [Nat.mod_eq_of_lt (by omega)]
        omega

theorem within_size {o l : Word} {n L : Nat} (h : calcMemSize o l = some n) (hn : n ≤ L) : Within (low64 o) (low64 l) L ∧ is64 l = true := by
  unfold calcMemSize at h
  split at h
  · rename_i hl
    rw [low64_of_is64 hl]
    exact ⟨within_len (of_decide_eq_true hl) h hn, hl⟩
  · cases h

theorem within_both {ro rs io is : Word} {n L : Nat}
    (h : (match calcMemSize ro rs, calcMemSize io is with
        | some x, some y => some (if x > y then x else y)
        | _, _ => none) = some n) (hn : n ≤ L) :
    Within (low64 io) (low64 is) L ∧ Within (low64 ro) (low64 rs) L := by
  cases h1 : calcMemSize ro rs with
  | none => rw [h1] at h; cases h
  | some x =>
    cases h2 : calcMemSize io is with
    | none => rw [h1, h2] at h; cases h
    | some y =>
      rw [h1, h2] at h
      injection h with h
      have : x ≤ L ∧ y ≤ L := by split at h <;> omega
      exact ⟨(within_size h2 this.2).1, (within_size h1 this.1).1⟩

theorem retSlice_no_panic {data : List UInt8} {off len : Word} (h : is64 len = true) : retSlice data off len ≠ some none := by
  have h64 : (2 : Nat) ^ 64 = 18446744073709551616 := by decide
  have h256 : (2 : Nat) ^ 256 = 115792089237316195423570985008687907853269984665640564039457584007913129639936 := by decide
  unfold retSlice
  split
  · intro h; cases h
  · rename_i h1
    dsimp only
    split
    · intro h; cases h
    · rename_i h2
      unfold goSlice
      rw [if_neg]
      · intro h; cases h
      · have a1 : off.toNat < 2 ^ 64 := by
          unfold is64 at h1
          simpa using h1
        have a2 : len.toNat < 2 ^ 64 := of_decide_eq_true h
        have e : (off + len).toNat = off.toNat + len.toNat := by
          rw [BitVec.toNat_add, Nat.mod_eq_of_lt (by rw [h256]; rw [h64] at a1 a2; omega)]
        rw [e] at h2 ⊢
        intro h3
        rcases h3 with h3 | h3
        · omega
        · exact h2 (.inr h3)

theorem copySource_no_panic {ctx : Ctx} {m : Mach} {o : CopyOp} {off len : Word} (h : is64 len = true) : copySource ctx m o off len ≠ some none := by
  cases o
  · intro h; cases h
  · intro h; cases h
  · exact retSlice_no_panic h

theorem validJumpdest_some (code : List UInt8) (dest : Nat) : ∃ b, validJumpdest code dest = some b := by
  unfold validJumpdest
  split
  · exact ⟨_, rfl⟩
  · rename_i hd
    have hd : dest < code.length := by omega
    rw [List.getElem?_eq_getElem hd]
    dsimp only
    split
    · exact ⟨_, rfl⟩
    · obtain ⟨b, hb, hl, _⟩ := codeBitmap_spec code
      rw [hb]
      unfold codeSegment
      dsimp only
      rw [List.getElem?_eq_getElem (show dest / 8 < b.length by omega)]
      exact ⟨_, rfl⟩

/-! ### The result of `exec` -/

/-- A machine with the same memory and a stack that fits the table. -/
structure Next (m : Mach) (op : Op) (more : Nat) (m' : Mach) : Prop where
  mem : m'.mem.length = m.mem.length
  last : m'.last = m.last
  stack : m'.stack.length + pops op + more = m.stack.length + pushes op

/-- What `exec` may do. -/
def ExecFacts (ctx : Ctx) (w : World) (m : Mach) (op : Op) : Exec → Prop
  | .cont m' => Next m op 0 m' ∧ (0 < constGas op ∨ op = .exp ∨ op = .sload)
  | .contW m' w' => Next m op 0 m' ∧ ctx.readOnly = false ∧
      ((op = .sstore ∧ ∃ k v rest, m.stack = k :: v :: rest ∧ w' = w.setState ctx.self k v) ∨ (∃ n l, op = .log n ∧ w' = w.addLog l))
  | .stopW w' => ctx.readOnly = false ∧ op ≠ .sstore ∧ ∃ b, w' = w.selfdestruct ctx.self b
  | .panic => False
  | .call r m' => Next m op 1 m' ∧ op = .call r.kind ∧ Within r.retOff r.retSize m.mem.length ∧ (r.kind = .call → ctx.readOnly = true → r.value = 0#256) ∧
      ((r.kind = .call ∨ r.kind = .callcode) ∧ (∃ g a rest, m.stack = g :: a :: r.value :: rest ∧ r.addr = toAddr a) ∨
       (r.kind = .delegate ∨ r.kind = .static) ∧ r.value = 0#256 ∧ ∃ g a rest, m.stack = g :: a :: rest ∧ r.addr = toAddr a)
  | .create _ m' => Next m op 1 m' ∧ ctx.readOnly = false ∧ (op = .create ∨ op = .create2)
  | .stop _ => op ≠ .sstore
  | .revert _ => True
  | .fail => True

theorem store_facts {ctx : Ctx} {w : World} {m : Mach} {op : Op} {stack : List Word} {off size : Nat} {value : List UInt8}
    (hw : Within off size m.mem.length) (hs : stack.length + pops op = m.stack.length + pushes op) (hc : 0 < constGas op) :
    ExecFacts ctx w m op (m.store stack (memSet m.mem off size value)) := by
  obtain ⟨mem, he⟩ := memSet_some (value := value) hw
  rw [he]
  exact ⟨⟨memSet_length he, rfl, hs⟩, .inl hc⟩

theorem jump_facts {ctx : Ctx} {w : World} {m : Mach} {op : Op} {stack : List Word} {p : Word}
    (hs : stack.length + pops op = m.stack.length + pushes op) (hc : 0 < constGas op) : ExecFacts ctx w m op (jumpTo ctx m stack p) := by
  unfold jumpTo
  obtain ⟨b, hb⟩ := validJumpdest_some ctx.code p.toNat
  rw [hb]
  cases b
  · exact trivial
  · exact ⟨⟨rfl, rfl, hs⟩, .inl hc⟩

theorem stack1 {st : List Word} (h : 1 ≤ st.length) : ∃ a r, st = a :: r := by
  match st, h with
  | a :: r, _ => exact ⟨a, r, rfl⟩
theorem stack2 {st : List Word} (h : 2 ≤ st.length) : ∃ a b r, st = a :: b :: r := by
  match st, h with
  | a :: b :: r, _ => exact ⟨a, b, r, rfl⟩
theorem stack3 {st : List Word} (h : 3 ≤ st.length) : ∃ a b c r, st = a :: b :: c :: r := by
  match st, h with
  | a :: b :: c :: r, _ => exact ⟨a, b, c, r, rfl⟩
theorem stack4 {st : List Word} (h : 4 ≤ st.length) : ∃ a b c d r, st = a :: b :: c :: d :: r := by
  match st, h with
  | a :: b :: c :: d :: r, _ => exact ⟨a, b, c, d, r, rfl⟩
theorem stack6 {st : List Word} (h : 6 ≤ st.length) : ∃ a b c d e f r, st = a :: b :: c :: d :: e :: f :: r := by
  match st, h with
  | a :: b :: c :: d :: e :: f :: r, _ => exact ⟨a, b, c, d, e, f, r, rfl⟩
theorem stack7 {st : List Word} (h : 7 ≤ st.length) : ∃ a b c d e f g r, st = a :: b :: c :: d :: e :: f :: g :: r := by
  match st, h with
  | a :: b :: c :: d :: e :: f :: g :: r, _ => exact ⟨a, b, c, d, e, f, g, r, rfl⟩

theorem exec_facts {env : Env} {ctx : Ctx} {w : World} {gas n : Nat} {m : Mach} {op : Op} (hp : pops op ≤ m.stack.length)
    (hsz : memSize op m.stack = some (some n)) (hn : n ≤ m.mem.length) (hb : m.mem.length ≤ 0x1FFFFFFFE0)
    (hop : op = .invalid → ∃ b, ctx.code[m.pc]? = some b) : ExecFacts ctx w m op (exec env ctx w gas m op) := by
  cases op with
  | stop =>
    exact fun h => by cases h
  | un o =>
    obtain ⟨x0, rest, hst⟩ := stack1 hp
    simp only [exec, hst]
    exact ⟨⟨rfl, rfl, by rw [hst]; rfl⟩, .inl (by cases o <;> decide)⟩
  | bin o =>
    obtain ⟨x0, x1, rest, hst⟩ := stack2 hp
    simp only [exec, hst]
    exact ⟨⟨rfl, rfl, by rw [hst]; rfl⟩, .inl (by cases o <;> decide)⟩
  | tern o =>
    obtain ⟨x0, x1, x2, rest, hst⟩ := stack3 hp
    simp only [exec, hst]
    exact ⟨⟨rfl, rfl, by rw [hst]; rfl⟩, .inl (by cases o <;> decide)⟩
  | exp =>
    obtain ⟨x0, x1, rest, hst⟩ := stack2 hp
    simp only [exec, hst]
    exact ⟨⟨rfl, rfl, by rw [hst]; rfl⟩, .inr (.inl rfl)⟩
  | keccak =>
    obtain ⟨x0, x1, rest, hst⟩ := stack2 hp
    simp only [memSize, hst] at hsz
    obtain ⟨d, hd⟩ := memGet_some (within_size (Option.some.inj hsz) hn).1 hb
    simp only [exec, hst, hd]
    exact ⟨⟨rfl, rfl, by rw [hst]; rfl⟩, .inl (by decide)⟩
  | null o =>
    exact ⟨⟨rfl, rfl, rfl⟩, .inl (by cases o <;> decide)⟩
  | balance =>
    obtain ⟨x0, rest, hst⟩ := stack1 hp
    simp only [exec, hst]
    exact ⟨⟨rfl, rfl, by rw [hst]; rfl⟩, .inl (by decide)⟩
  | calldataload =>
    obtain ⟨x0, rest, hst⟩ := stack1 hp
    simp only [exec, hst]
    exact ⟨⟨rfl, rfl, by rw [hst]; rfl⟩, .inl (by decide)⟩
  | copy o =>
    obtain ⟨x0, x1, x2, rest, hst⟩ := stack3 hp
    simp only [memSize, hst] at hsz
    have hw := within_size (Option.some.inj hsz) hn
    simp only [exec, hst]
    split
    · exact trivial
    · rename_i he
      exact absurd he (copySource_no_panic hw.2)
    · exact store_facts hw.1 (by rw [hst]; rfl) (by cases o <;> decide)
  | extcodesize =>
    obtain ⟨x0, rest, hst⟩ := stack1 hp
    simp only [exec, hst]
    exact ⟨⟨rfl, rfl, by rw [hst]; rfl⟩, .inl (by decide)⟩
  | extcodecopy =>
    obtain ⟨x0, x1, x2, x3, rest, hst⟩ := stack4 hp
    simp only [memSize, hst] at hsz
    have hw := within_size (Option.some.inj hsz) hn
    simp only [exec, hst]
    exact store_facts hw.1 (by rw [hst]; rfl) (by decide)
  | extcodehash =>
    obtain ⟨x0, rest, hst⟩ := stack1 hp
    simp only [exec, hst]
    exact ⟨⟨rfl, rfl, by rw [hst]; rfl⟩, .inl (by decide)⟩
  | blockhash =>
    obtain ⟨x0, rest, hst⟩ := stack1 hp
    simp only [exec, hst]
    exact ⟨⟨rfl, rfl, by rw [hst]; rfl⟩, .inl (by decide)⟩
  | pop =>
    obtain ⟨x0, rest, hst⟩ := stack1 hp
    simp only [exec, hst]
    exact ⟨⟨rfl, rfl, by rw [hst]; rfl⟩, .inl (by decide)⟩
  | mload =>
    obtain ⟨x0, rest, hst⟩ := stack1 hp
    simp only [memSize, hst] at hsz
    obtain ⟨d, hd⟩ := memGet_some (within_len (by decide) (Option.some.inj hsz) hn) hb
    simp only [exec, hst, hd]
    exact ⟨⟨rfl, rfl, by rw [hst]; rfl⟩, .inl (by decide)⟩
  | mstore =>
    obtain ⟨x0, x1, rest, hst⟩ := stack2 hp
    simp only [memSize, hst] at hsz
    have hw := within_len (by decide) (Option.some.inj hsz) hn
    simp only [exec, hst]
    exact store_facts hw (by rw [hst]; rfl) (by decide)
  | mstore8 =>
    obtain ⟨x0, x1, rest, hst⟩ := stack2 hp
    simp only [memSize, hst] at hsz
    have hw := within_len (by decide) (Option.some.inj hsz) hn
    simp only [exec, hst]
    exact store_facts hw (by rw [hst]; rfl) (by decide)
  | sload =>
    obtain ⟨x0, rest, hst⟩ := stack1 hp
    simp only [exec, hst]
    exact ⟨⟨rfl, rfl, by rw [hst]; rfl⟩, .inr (.inr rfl)⟩
  | sstore =>
    obtain ⟨x0, x1, rest, hst⟩ := stack2 hp
    simp only [exec, hst]
    split
    · exact trivial
    · rename_i hro
      exact ⟨⟨rfl, rfl, by rw [hst]; rfl⟩, by simpa using hro, .inl ⟨rfl, _, _, _, hst, rfl⟩⟩
  | jump =>
    obtain ⟨x0, rest, hst⟩ := stack1 hp
    simp only [exec, hst]
    exact jump_facts (by rw [hst]; rfl) (by decide)
  | jumpi =>
    obtain ⟨x0, x1, rest, hst⟩ := stack2 hp
    simp only [exec, hst]
    split
    · exact ⟨⟨rfl, rfl, by rw [hst]; rfl⟩, .inl (by decide)⟩
    · exact jump_facts (by rw [hst]; rfl) (by decide)
  | jumpdest =>
    exact ⟨⟨rfl, rfl, rfl⟩, .inl (by decide)⟩
  | push k =>
    exact ⟨⟨rfl, rfl, rfl⟩, .inl (show 0 < 3 by decide)⟩
  | dup k =>
    simp only [pops] at hp
    simp only [exec, List.getElem?_eq_getElem (show k < m.stack.length by omega)]
    refine ⟨⟨rfl, rfl, ?_⟩, .inl (show 0 < 3 by decide)⟩
    simp only [Mach.next, List.length_cons, pops, pushes]
    omega
  | swap k =>
    simp only [pops] at hp
    simp only [exec, List.getElem?_eq_getElem (show 0 < m.stack.length by omega), List.getElem?_eq_getElem (show k + 1 < m.stack.length by omega)]
    refine ⟨⟨rfl, rfl, ?_⟩, .inl (show 0 < 3 by decide)⟩
    simp only [Mach.next, List.length_set, pops, pushes]
    omega
  | log k =>
    simp only [pops] at hp
    obtain ⟨x0, x1, rest, hst⟩ := stack2 (show 2 ≤ m.stack.length by omega)
    simp only [memSize, hst] at hsz
    obtain ⟨d, hd⟩ := memGet_some (within_size (Option.some.inj hsz) hn).1 hb
    have hl : ¬ rest.length < k := by rw [hst] at hp; simp only [List.length_cons] at hp; omega
    simp only [exec, logOp, hst, hd, if_neg hl]
    split
    · exact trivial
    · rename_i hro
      refine ⟨⟨rfl, rfl, ?_⟩, by simpa using hro, .inr ⟨_, _, rfl, rfl⟩⟩
      rw [hst]
      simp only [Mach.next, List.length_drop, List.length_cons, pops, pushes]
      omega
  | create =>
    obtain ⟨x0, x1, x2, rest, hst⟩ := stack3 hp
    simp only [memSize, hst] at hsz
    obtain ⟨d, hd⟩ := memGet_some (within_size (Option.some.inj hsz) hn).1 hb
    simp only [exec, createOp, hst, hd]
    split
    · exact trivial
    · rename_i hro
      exact ⟨⟨rfl, rfl, by rw [hst]; rfl⟩, by simpa using hro, .inl rfl⟩
  | create2 =>
    obtain ⟨x0, x1, x2, x3, rest, hst⟩ := stack4 hp
    simp only [memSize, hst] at hsz
    obtain ⟨d, hd⟩ := memGet_some (within_size (Option.some.inj hsz) hn).1 hb
    simp only [exec, createOp, hst, hd, ↓reduceIte]
    split
    · exact trivial
    · rename_i hro
      exact ⟨⟨rfl, rfl, by rw [hst]; rfl⟩, by simpa using hro, .inr rfl⟩
  | call k =>
    cases k with
    | call =>
      obtain ⟨x0, x1, x2, x3, x4, x5, x6, rest, hst⟩ := stack7 hp
      simp only [memSize, hst] at hsz
      have hw := within_both (Option.some.inj hsz) hn
      obtain ⟨d, hd⟩ := memGet_some hw.1 hb
      simp only [exec, callOp, hst, hd]
      split
      · exact trivial
      · rename_i hro
        exact ⟨⟨rfl, rfl, by rw [hst]; rfl⟩, rfl, hw.2, fun _ h => Decidable.byContradiction fun hv => hro ⟨trivial, h, hv⟩, .inl ⟨.inl rfl, _, _, _, hst, rfl⟩⟩
    | callcode =>
      obtain ⟨x0, x1, x2, x3, x4, x5, x6, rest, hst⟩ := stack7 hp
      simp only [memSize, hst] at hsz
      have hw := within_both (Option.some.inj hsz) hn
      obtain ⟨d, hd⟩ := memGet_some hw.1 hb
      simp only [exec, callOp, hst, hd]
      rw [if_neg (by simp)]
      exact ⟨⟨rfl, rfl, by rw [hst]; rfl⟩, rfl, hw.2, (fun h => by cases h), .inl ⟨.inr rfl, _, _, _, hst, rfl⟩⟩
    | delegate =>
      obtain ⟨x0, x1, x2, x3, x4, x5, rest, hst⟩ := stack6 hp
      simp only [memSize, hst] at hsz
      have hw := within_both (Option.some.inj hsz) hn
      obtain ⟨d, hd⟩ := memGet_some hw.1 hb
      simp only [exec, callOp, hst, hd]
      exact ⟨⟨rfl, rfl, by rw [hst]; rfl⟩, rfl, hw.2, (fun h => by cases h), .inr ⟨.inl rfl, rfl, _, _, _, hst, rfl⟩⟩
    | static =>
      obtain ⟨x0, x1, x2, x3, x4, x5, rest, hst⟩ := stack6 hp
      simp only [memSize, hst] at hsz
      have hw := within_both (Option.some.inj hsz) hn
      obtain ⟨d, hd⟩ := memGet_some hw.1 hb
      simp only [exec, callOp, hst, hd]
      exact ⟨⟨rfl, rfl, by rw [hst]; rfl⟩, rfl, hw.2, (fun h => by cases h), .inr ⟨.inr rfl, rfl, _, _, _, hst, rfl⟩⟩
  | ret =>
    obtain ⟨x0, x1, rest, hst⟩ := stack2 hp
    simp only [memSize, hst] at hsz
    obtain ⟨d, hd⟩ := memGet_some (within_size (Option.some.inj hsz) hn).1 hb
    simp only [exec, hst, hd]
    exact fun h => by cases h
  | revert =>
    obtain ⟨x0, x1, rest, hst⟩ := stack2 hp
    simp only [memSize, hst] at hsz
    obtain ⟨d, hd⟩ := memGet_some (within_size (Option.some.inj hsz) hn).1 hb
    simp only [exec, hst, hd]
    exact trivial
  | selfdestruct =>
    obtain ⟨x0, rest, hst⟩ := stack1 hp
    simp only [exec, hst]
    split
    · exact trivial
    · rename_i hro
      exact ⟨by simpa using hro, (fun h => by cases h), _, rfl⟩
  | invalid =>
    obtain ⟨b, hb⟩ := hop rfl
    simp only [exec, hb]
    exact trivial

end VM
