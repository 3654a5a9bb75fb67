import Verif.Wallet.LedgerLemmas
/-!
# Properties of talking to hardware wallets (C113)

The property: the device gets exactly the command the host sends, the host gets exactly the device's answer, and a
refusal by the device is an error. The first part is proved for data of up to 255 bytes, which is all a command can
have, the second for all answers; the third is false: the status is cut off without a look.
-/

namespace Ledger

/-- **Commands arrive**: from the packets sent the device reads exactly the command, if its data has at most 255
bytes. -/
theorem command_arrives {op p1 p2 : Nat} {data : List Nat} (ho : op < 256) (h1 : p1 < 256) (h2 : p2 < 256)
    (hd : data.length ≤ 255) :
    (message (send op p1 p2 data)).bind command = some { op, p1, p2, data } := by
  rw [message_send op p1 p2 data (by omega)]
  have e1 : low op = op := Nat.mod_eq_of_lt ho
  have e2 : low p1 = p1 := Nat.mod_eq_of_lt h1
  have e3 : low p2 = p2 := Nat.mod_eq_of_lt h2
  have e4 : low data.length = data.length := Nat.mod_eq_of_lt (by omega)
  rw [e1, e2, e3, e4]
  simp only [Option.bind_some, List.cons_append, List.nil_append, command, if_true]

/-- No two commands are sent alike. -/
theorem commands_differ {op p1 p2 op' p1' p2' : Nat} {data data' : List Nat} (ho : op < 256) (h1 : p1 < 256)
    (h2 : p2 < 256) (hd : data.length ≤ 255) (ho' : op' < 256) (h1' : p1' < 256) (h2' : p2' < 256)
    (hd' : data'.length ≤ 255) (h : send op p1 p2 data = send op' p1' p2' data') :
    op = op' ∧ p1 = p1' ∧ p2 = p2' ∧ data = data' := by
  have a := command_arrives ho h1 h2 hd
  rw [h, command_arrives ho' h1' h2' hd'] at a
  injection a with a
  injection a with a1 a2 a3 a4
  exact ⟨a1.symm, a2.symm, a3.symm, a4.symm⟩

/-- **Longer data is not refused by the driver but sent with a wrong length**, and is no command for the device. -/
theorem long_data_misread {op p1 p2 : Nat} {data : List Nat} (hd : 255 < data.length) (hb : data.length < 65531) :
    (message (send op p1 p2 data)).bind command = none := by
  rw [message_send op p1 p2 data (by omega)]
  simp only [Option.bind_some, List.cons_append, List.nil_append, command]
  rw [if_neg]
  unfold low
  omega

/-- **Answers arrive**: whatever answer the device gives, however the last packet is filled up and whatever comes
after it, the host gets the answer without its last two bytes, the status, and takes no packet too many. -/
theorem answer_arrives {ans : List Nat} {ps : List (List Nat)} (h : Answers ans ps) (h2 : 2 ≤ ans.length)
    (hb : ans.length < 65536) (rest : List (List Nat)) :
    receive (ps ++ rest) = .ok (ans.take (ans.length - 2)) rest := by
  have hfin : finish ans rest = .ok (ans.take (ans.length - 2)) rest := by
    unfold finish
    rw [if_neg (by omega)]
  have hcap : ans.length / 256 * 256 + ans.length % 256 = ans.length := by omega
  unfold Answers at h
  unfold receive
  generalize ht : [ans.length / 256, ans.length % 256] ++ ans = t at h
  cases h with
  | @last _ _ pad hlen =>
    subst ht
    have hp : ([ans.length / 256, ans.length % 256] ++ ans) ++ pad
        = (ans.length / 256) :: (ans.length % 256) :: (ans ++ pad) := rfl
    simp only [List.length_append, List.length_cons, List.length_nil] at hlen
    rw [List.cons_append, List.nil_append, hp]
    show readLoop (([1, 1, 5, 0, 0] ++ ((ans.length / 256) :: (ans.length % 256) :: (ans ++ pad))) :: rest) 0 [] = _
    rw [readLoop_first (by rw [List.length_append]; omega), hcap, if_neg (by rw [List.length_append]; omega),
      List.take_left, hfin]
  | @more _ part t' ps' hlen hne hc =>
    match part, hlen, ht with
    | a :: b :: q, hlen, ht =>
      injection ht with ha ht
      injection ht with hb' ht
      have ha' : ans.length / 256 = a := ha
      have hb2 : ans.length % 256 = b := hb'
      have hans : ans = q ++ t' := ht
      have hq : q.length = 57 := by simpa using hlen
      have htl : 0 < t'.length := List.length_pos_iff.2 hne
      have hlen2 : ans.length = 57 + t'.length := by rw [hans, List.length_append, hq]
      rw [List.cons_append]
      show readLoop (([1, 1, 5, 0, 0] ++ (a :: b :: q)) :: (ps' ++ rest)) 0 [] = _
      rw [readLoop_first hq, ← ha', ← hb2, hcap, if_pos (by omega),
        readLoop_carries hc rest (by omega) (by omega) (by omega), ← hans, hfin]

/-- Every answer can be sent. -/
theorem every_answer_has_packets (ans : List Nat) : ∃ ps, Answers ans ps := by
  have key : ∀ n, ∀ t : List Nat, t.length ≤ n → ∀ i, ∃ ps, Carries i t ps := by
    intro n
    induction n with
    | zero =>
      intro t ht i
      have : t = [] := List.length_eq_zero_iff.1 (Nat.le_zero.1 ht)
      subst this
      exact ⟨_, .last (pad := List.replicate 59 0) (by simp)⟩
    | succ n ih =>
      intro t ht i
      by_cases h : t.length ≤ 59
      · exact ⟨_, .last (pad := List.replicate (59 - t.length) 0) (by rw [List.length_replicate]; omega)⟩
      · obtain ⟨ps, hps⟩ := ih (t.drop 59) (by rw [List.length_drop]; omega) (i + 1)
        have := Carries.more (part := t.take 59) (by rw [List.length_take]; omega)
          (by
            intro e
            have := congrArg List.length e
            rw [List.length_drop, List.length_nil] at this
            omega) hps
        rw [List.take_append_drop] at this
        exact ⟨_, this⟩
  exact key _ _ (Nat.le_refl _) 0

/-- **Refusals are answers**: whatever the status in the last two bytes, the host takes what is before it as the
answer, for instance the empty one when the user declined. -/
theorem status_ignored {body : List Nat} {x y : Nat} {ps : List (List Nat)} (h : Answers (body ++ [x, y]) ps)
    (hb : body.length < 65534) (rest : List (List Nat)) : receive (ps ++ rest) = .ok body rest := by
  have hl : (body ++ [x, y]).length = body.length + 2 := by simp
  rw [answer_arrives h (by omega) (by omega), hl, Nat.add_sub_cancel, List.take_left]

/-- **Answers without status are a panic**, and so is a first packet with another number than 0. -/
theorem panics_when :
    (∀ (ans : List Nat) (ps rest : List (List Nat)), Answers ans ps → ans.length < 2 → receive (ps ++ rest) = .panics) ∧
    (∀ (a b : Nat) (q : List Nat) (rest : List (List Nat)), q.length = 59 → ¬ (a = 0 ∧ b = 0) →
      receive (([1, 1, 5, a, b] ++ q) :: rest) = .panics) := by
  constructor
  · intro ans ps rest h hl
    unfold Answers at h
    unfold receive
    generalize ht : [ans.length / 256, ans.length % 256] ++ ans = t at h
    cases h with
    | @last _ _ pad hlen =>
      subst ht
      have hp : ([ans.length / 256, ans.length % 256] ++ ans) ++ pad
          = (ans.length / 256) :: (ans.length % 256) :: (ans ++ pad) := rfl
      simp only [List.length_append, List.length_cons, List.length_nil] at hlen
      have hcap : ans.length / 256 * 256 + ans.length % 256 = ans.length := by omega
      rw [List.cons_append, List.nil_append, hp]
      show readLoop (([1, 1, 5, 0, 0] ++ ((ans.length / 256) :: (ans.length % 256) :: (ans ++ pad))) :: rest) 0 [] = _
      rw [readLoop_first (by rw [List.length_append]; omega), hcap, if_neg (by rw [List.length_append]; omega),
        List.take_left]
      unfold finish
      rw [if_pos hl]
    | @more _ part t' ps' hlen hne hc =>
      have := congrArg List.length ht
      rw [List.length_append, List.length_append, hlen] at this
      have htl : 0 < t'.length := List.length_pos_iff.2 hne
      simp only [List.length_cons, List.length_nil] at this
      omega
  · intro a b q rest hq hnz
    unfold receive
    rw [readLoop_next hq hnz, if_neg (by simp)]
    rfl

/-- **Numbers of later packets are not checked**: with any other number than 0 a packet counts the same. -/
theorem numbers_not_checked {a b a' b' : Nat} {q : List Nat} (hq : q.length = 59) (h : ¬ (a = 0 ∧ b = 0))
    (h' : ¬ (a' = 0 ∧ b' = 0)) (ps : List (List Nat)) (cap : Nat) (reply : List Nat) :
    readLoop (([1, 1, 5, a, b] ++ q) :: ps) cap reply = readLoop (([1, 1, 5, a', b'] ++ q) :: ps) cap reply := by
  rw [readLoop_next hq h, readLoop_next hq h']

/-- Packets of another channel or kind are an error, at any point. -/
theorem other_channel_fails {p : List Nat} (h : p.take 3 ≠ [1, 1, 5]) (ps : List (List Nat)) (cap : Nat)
    (reply : List Nat) : readLoop (p :: ps) cap reply = .fails := by
  unfold readLoop
  split <;> rfl

/-- Packets that are not of 64 bytes, and answers that end early, are errors. -/
theorem incomplete_fails (cap : Nat) (reply : List Nat) :
    readLoop [] cap reply = .fails ∧ ∀ (p : List Nat) (ps : List (List Nat)), p.length ≠ 64 →
      readLoop (p :: ps) cap reply = .fails := by
  refine ⟨rfl, ?_⟩
  intro p ps h
  unfold readLoop
  rw [if_pos h]

/-- **Requests to sign arrive**: the device reads the path and behind it the two hashes, for paths of up to 47
components. -/
theorem request_arrives {op p1 p2 : Nat} {path domain msg : List Nat} (ho : op < 256) (h1 : p1 < 256) (h2 : p2 < 256)
    (hp : path.length ≤ 47) (hc : ∀ x ∈ path, x < 4294967296) (hd : domain.length = 32) (hm : msg.length = 32) :
    ∃ cmd, (message (send op p1 p2 (typedPayload path domain msg))).bind command = some cmd ∧ cmd.op = op ∧
      cmd.p1 = p1 ∧ cmd.p2 = p2 ∧ readPath cmd.data = some (path, domain ++ msg) := by
  have hfl : ∀ l : List Nat, (l.flatMap put32).length = 4 * l.length := by
    intro l
    induction l with
    | nil => rfl
    | cons x xs ih =>
      rw [List.flatMap_cons, List.length_append, ih, List.length_cons]
      show 4 + _ = _
      omega
  have hlen : (typedPayload path domain msg).length ≤ 255 := by
    unfold typedPayload flatten
    simp only [List.length_append, List.length_cons, hfl, hd, hm]
    omega
  refine ⟨_, command_arrives ho h1 h2 hlen, rfl, rfl, rfl, ?_⟩
  unfold typedPayload flatten readPath
  have : low path.length = path.length := Nat.mod_eq_of_lt (by omega)
  simp only [this, List.cons_append, List.append_assoc]
  exact components_flat path _ hc

/-- **Signatures** are answers of 65 bytes, with the first byte moved to the end. -/
theorem signature_iff {reply sig : List Nat} :
    signature reply = some sig ↔ ∃ v rs, reply = v :: rs ∧ rs.length = 64 ∧ sig = rs ++ [v] := by
  unfold signature
  cases reply with
  | nil => exact ⟨fun h => (by cases h), fun ⟨_, _, h, _⟩ => (by cases h)⟩
  | cons v rs =>
    dsimp only
    rw [List.length_cons]
    constructor
    · intro h
      split at h
      · injection h with h
        exact ⟨v, rs, rfl, by omega, h.symm⟩
      · cases h
    · rintro ⟨v', rs', h, hl, hs⟩
      injection h with hv hr
      subst hv hr
      rw [if_pos (by omega), hs]

/-! ## The hypotheses are met -/

/-- A command of two packets. -/
example : (send 2 0 0 (List.replicate 70 9)).length = 2 ∧
    (message (send 2 0 0 (List.replicate 70 9))).bind command
      = some { op := 2, p1 := 0, p2 := 0, data := List.replicate 70 9 } :=
  ⟨by decide +kernel, command_arrives (by decide) (by decide) (by decide) (by decide)⟩

/-- An answer of two packets, with the status 0x9000. -/
example : ∃ ps, Answers (List.replicate 65 7 ++ [144, 0]) ps ∧ receive ps = .ok (List.replicate 65 7) [] := by
  obtain ⟨ps, h⟩ := every_answer_has_packets (List.replicate 65 7 ++ [144, 0])
  have := status_ignored h (by decide) []
  rw [List.append_nil] at this
  exact ⟨ps, h, this⟩

/-- The user declines (status 0x6985): an empty answer, no error. -/
example : receive [[1, 1, 5, 0, 0, 0, 2, 105, 133] ++ List.replicate 55 0] = .ok [] [] := by decide +kernel

example : readPath (typedPayload [2147483692, 2147483708, 2147483648, 0, 0] (List.replicate 32 1) (List.replicate 32 2))
    = some ([2147483692, 2147483708, 2147483648, 0, 0], List.replicate 32 1 ++ List.replicate 32 2) := by decide +kernel

end Ledger
