import Verif.EVM.BlockHashLemmas
import Verif.VM.Interp
/-!
# Properties of hashes of earlier blocks (C112)

The property: a contract that asks for the hash of one of the last 256 blocks gets it, and zero for all other
numbers. It holds if the application's context holds whole headers and the staking module keeps at least 257 of
them. With contexts as in version 0.50 of the SDK the answer is zero for every block.
-/

namespace BlockHash

/-- **The full property, partial**: after every history, the hash of a block `b` asked for within the next 256
blocks is the hash of its header, provided that the staking module is set to keep at least 257 headers all the
while, the header is a real one and the application's context holds all of it. Missing: the last condition, which
contexts of version 0.50 of the SDK do not meet. -/
theorem gives_hash_partial {e : Env} {c : Nat} {pre post : List (Nat × Header)} {n : Nat} {b : Header}
    (hn : 257 ≤ n) (hpost : ∀ x ∈ post, 257 ≤ x.1) (h1 : 1 ≤ post.length) (h256 : post.length ≤ 256)
    (hreal : Real e b) (hseen : e.seen b = b) (hheight : c + pre.length + 1 ≤ 9223372036854775807) :
    opcode e (run e { cur := c } (pre ++ (n, b) :: post)) (c + pre.length + 1) = e.hash b := by
  rw [run_append]
  have hcur : (run e { cur := c } pre).cur = c + pre.length := run_cur e pre _
  have hbc : (block e (run e { cur := c } pre) n b).cur = c + pre.length + 1 := by
    show (run e { cur := c } pre).cur + 1 = _
    rw [hcur]
  have hfin : (run e (run e { cur := c } pre) ((n, b) :: post)).cur = c + pre.length + 1 + post.length := by
    show (run e (block e (run e { cur := c } pre) n b) post).cur = _
    rw [run_cur, hbc]
  rw [opcode_recent (by unfold Recent; rw [hfin]; omega) hheight]
  have hinf : (run e (run e { cur := c } pre) ((n, b) :: post)).infos (c + pre.length + 1) = some b := by
    show (run e (block e (run e { cur := c } pre) n b) post).infos _ = _
    rw [infos_run post _ _ (by rw [hbc]; exact Nat.le_refl _) hpost (by rw [hbc]; omega)]
    show (if n = 0 then _ else set _ ((run e { cur := c } pre).cur + 1) (some (e.seen b))) _ = _
    rw [if_neg (by omega), hcur]
    unfold set
    rw [if_pos rfl, hseen]
  rw [hinf]
  dsimp only
  rw [if_pos hreal.1]
  unfold headerHash
  rw [if_neg hreal.2]

/-- **Never another block's hash**: after every history an answer other than zero is the hash of what the context
held of the header of just the block asked for, one of the last 256. -/
theorem never_another {e : Env} {c : Nat} {l : List (Nat × Header)} {k : Nat}
    (h : opcode e (run e { cur := c } l) k ≠ 0) :
    Recent (run e { cur := c } l) k ∧
    ∃ b, (run e { cur := c } l).blocks k = some b ∧ opcode e (run e { cur := c } l) k = e.hash (e.seen b) := by
  have hs : Sound e (run e { cur := c } l) := sound_run l (sound_init e c)
  generalize run e { cur := c } l = s at h hs
  have hrec : Recent s k := Classical.byContradiction fun hr => h (opcode_out hr)
  have hk : k ≤ 9223372036854775807 := Nat.not_lt.1 fun hk => h (opcode_far hk)
  refine ⟨hrec, ?_⟩
  rw [opcode_recent hrec hk] at h ⊢
  cases hi : s.infos k with
  | none => rw [hi] at h; exact absurd rfl h
  | some x =>
    rw [hi] at h
    dsimp only at h ⊢
    obtain ⟨_, b, hb, hx⟩ := hs.1 k x hi
    split at h
    · rename_i hv
      rw [if_pos hv]
      unfold headerHash at h ⊢
      split at h
      · exact absurd rfl h
      · rename_i hval
        rw [if_neg hval, hx]
        exact ⟨b, hb, rfl⟩
    · exact absurd rfl h

/-- Outside of the last 256 blocks the answer is zero. -/
theorem zero_outside {e : Env} {s : State} {k : Nat} (h : ¬ Recent s k) : opcode e s k = 0 := opcode_out h

/-- **With contexts as in version 0.50 of the SDK every answer is zero**, for every history and every number: the
kept headers lack the hash of the validators. -/
theorem always_zero {e : Env} (he : e.seen = sdk50) {c : Nat} {l : List (Nat × Header)} (k : Nat) :
    opcode e (run e { cur := c } l) k = 0 := by
  have hs : Sound e (run e { cur := c } l) := sound_run l (sound_init e c)
  generalize run e { cur := c } l = s at hs
  by_cases hr : Recent s k
  · by_cases hk : 9223372036854775807 < k
    · exact opcode_far hk
    · rw [opcode_recent hr (by omega)]
      cases hi : s.infos k with
      | none => rfl
      | some x =>
        obtain ⟨_, b, _, hx⟩ := hs.1 k x hi
        dsimp only
        split
        · unfold headerHash
          rw [if_pos]
          rw [hx, he]
          rfl
        · rfl
  · exact zero_outside hr

/-- So the full property fails with such contexts, for every history of two or more blocks whose last but one has a
hash other than zero. -/
theorem does_not_give_hashes {e : Env} (he : e.seen = sdk50) {c : Nat} {pre : List (Nat × Header)} {n n' : Nat}
    {b b' : Header} (hb : e.hash b ≠ 0) :
    ¬ GivesHashes e (run e { cur := c } (pre ++ [(n, b), (n', b')])) := by
  intro hg
  have hcur : (run e { cur := c } pre).cur = c + pre.length := run_cur e pre _
  have hfin : (run e { cur := c } (pre ++ [(n, b), (n', b')])).cur = c + pre.length + 2 := by
    rw [run_cur]
    simp
    omega
  have hblk : (run e { cur := c } (pre ++ [(n, b), (n', b')])).blocks (c + pre.length + 1) = some b := by
    rw [run_append]
    show (run e (block e (run e { cur := c } pre) n b) [(n', b')]).blocks _ = _
    rw [blocks_run _ _ _ (by show _ ≤ (run e { cur := c } pre).cur + 1; rw [hcur]; exact Nat.le_refl _)]
    show set _ ((run e { cur := c } pre).cur + 1) (some b) _ = _
    rw [hcur]
    unfold set
    rw [if_pos rfl]
  have := hg (c + pre.length + 1) b (by unfold Recent; rw [hfin]; omega) hblk
  rw [always_zero he] at this
  exact hb this.symm

/-- **The number of headers kept matters**: if none are, every answer is zero. -/
theorem zero_without_entries {e : Env} {c : Nat} {l : List (Nat × Header)} (hn : ∀ x ∈ l, x.1 = 0) (k : Nat) :
    opcode e (run e { cur := c } l) k = 0 := by
  have key : ∀ (l : List (Nat × Header)) (s : State), (∀ x ∈ l, x.1 = 0) → (∀ k, s.infos k = none) →
      ∀ k, (run e s l).infos k = none := by
    intro l
    induction l with
    | nil => intro s _ h; exact h
    | cons b l ih =>
      intro s hn h
      apply ih (block e s b.1 b.2) (fun x hx => hn x (List.mem_cons_of_mem _ hx))
      intro k
      have h0 := hn b (List.mem_cons_self ..)
      cases hk : (block e s b.1 b.2).infos k with
      | none => rfl
      | some x =>
        have hk' : (if b.1 = 0 then (if b.1 ≤ s.cur + 1 then prune (s.cur + 1 - b.1) s.infos else s.infos)
          else set (if b.1 ≤ s.cur + 1 then prune (s.cur + 1 - b.1) s.infos else s.infos) (s.cur + 1) (some (e.seen b.2))) k
          = some x := hk
        rw [if_pos h0] at hk'
        split at hk'
        · have := prune_sub _ _ _ _ hk'
          rw [h k] at this
          cases this
        · rw [h k] at hk'
          cases hk'
  have hi := key l { cur := c } hn (fun _ => rfl) k
  by_cases hr : Recent (run e { cur := c } l) k
  · by_cases hk : 9223372036854775807 < k
    · exact opcode_far hk
    · rw [opcode_recent hr (by omega), hi]
  · exact zero_outside hr

/-- The keeper's function gives the current block its own hash and later blocks none. -/
theorem current_and_later {e : Env} {c : Nat} {pre : List (Nat × Header)} {n : Nat} {b : Header}
    (hreal : b.validators ≠ []) (hheight : c + pre.length + 1 ≤ 9223372036854775807) :
    hashFn e (run e { cur := c } (pre ++ [(n, b)])) (c + pre.length + 1) = e.hash b ∧
    ∀ k, c + pre.length + 1 < k → hashFn e (run e { cur := c } (pre ++ [(n, b)])) k = 0 := by
  have hcur : (run e { cur := c } pre).cur = c + pre.length := run_cur e pre _
  have hfin : (run e { cur := c } (pre ++ [(n, b)])).cur = c + pre.length + 1 := by
    rw [run_cur]
    simp
    omega
  have hblk : (run e { cur := c } (pre ++ [(n, b)])).blocks (c + pre.length + 1) = some b := by
    rw [run_append]
    show set _ ((run e { cur := c } pre).cur + 1) (some b) _ = _
    rw [hcur]
    unfold set
    rw [if_pos rfl]
  constructor
  · unfold hashFn
    rw [if_neg (by omega), if_pos hfin, hblk]
    unfold headerHash
    dsimp only
    rw [if_neg hreal]
  · intro k hk
    unfold hashFn
    rw [hfin, if_neg (show ¬ c + pre.length + 1 = k by omega), if_neg (show ¬ k < c + pre.length + 1 by omega)]
    split <;> rfl

/-- The instruction of the machine of C72, run with this keeper's function, is the instruction here. -/
theorem machine_agrees (e : Env) (s : State) (env : VM.Env) (hnum : env.number = s.cur)
    (hfn : ∀ k, env.blockHash k = BitVec.ofNat 256 (hashFn e s k)) (n : VM.Word) :
    VM.blockHashOp env n = BitVec.ofNat 256 (opcode e s n.toNat) := by
  unfold VM.blockHashOp opcode VM.is64
  rw [hnum]
  simp only [hfn]
  by_cases h : n.toNat < 2 ^ 64
  · rw [if_neg (show ¬ 18446744073709551615 < n.toNat by omega), if_pos (by simpa using h)]
    generalize (if s.cur < 257 then 0 else s.cur - 256) = lo
    by_cases hc : lo ≤ n.toNat ∧ n.toNat < s.cur
    · rw [if_pos hc, if_pos hc]
    · rw [if_neg hc, if_neg hc]
  · rw [if_pos (show 18446744073709551615 < n.toNat by omega), if_neg (by simpa using h)]

/-! ## The hypotheses are met -/

/-- A header, and contexts that hold all or what version 0.50 of the SDK holds. -/
def demoHeader (t : Nat) : Header :=
  { version := 11, chainId := 42000, height := 7, time := t, lastBlockId := [], lastCommit := [], data := [],
    evidence := [], validators := List.replicate 32 1, nextValidators := [], consensus := [], app := [9],
    lastResults := [], proposer := List.replicate 20 3 }

def demoEnv : Env := { hash := fun h => 1000 + h.time, seen := id, protocol := 11 }

example : Real demoEnv (demoHeader 5) ∧ demoEnv.seen (demoHeader 5) = demoHeader 5 :=
  ⟨⟨by decide +kernel, by decide⟩, rfl⟩

/-- Block 1 asked for from block 3. -/
example : opcode demoEnv (run demoEnv { cur := 0 } [(300, demoHeader 5), (300, demoHeader 6), (300, demoHeader 7)]) 1 = 1005 := by
  decide +kernel

/-- The same with the contexts of version 0.50. -/
example : opcode { demoEnv with seen := sdk50 }
    (run { demoEnv with seen := sdk50 } { cur := 0 } [(300, demoHeader 5), (300, demoHeader 6), (300, demoHeader 7)]) 1 = 0 := by
  decide +kernel

/-- With only two headers kept, block 1 is gone in block 3. -/
example : opcode demoEnv (run demoEnv { cur := 0 } [(2, demoHeader 5), (2, demoHeader 6), (2, demoHeader 7)]) 1 = 0 ∧
    opcode demoEnv (run demoEnv { cur := 0 } [(2, demoHeader 5), (2, demoHeader 6), (2, demoHeader 7)]) 2 = 1006 := by
  decide +kernel

end BlockHash
