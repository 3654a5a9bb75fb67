import Verif.Wallet.LedgerSpec
/-!
# Lemmas about talking to hardware wallets
-/

namespace Ledger

theorem assemble_packets (fuel : Nat) : ∀ (i : Nat) (bytes : List Nat), bytes.length ≤ fuel →
    assemble i (packets fuel i bytes) = some bytes := by
  have hh : ∀ i : Nat, header i = [1, 1, 5, i / 256 % 256, i % 256] := fun _ => rfl
  induction fuel with
  | zero =>
    intro i bytes h
    have : bytes = [] := List.length_eq_zero_iff.1 (Nat.le_zero.1 h)
    rw [this]
    rfl
  | succ fuel ih =>
    intro i bytes h
    unfold packets
    by_cases h0 : bytes = []
    · rw [if_pos h0, h0]; rfl
    · rw [if_neg h0]
      by_cases h59 : 59 < bytes.length
      · rw [if_pos h59]
        unfold assemble
        have ht : (header i ++ bytes.take 59).take 5 = [1, 1, 5, i / 256 % 256, i % 256] := by rw [hh]; rfl
        have hd : (header i ++ bytes.take 59).drop 5 = bytes.take 59 := by rw [hh]; rfl
        have hl : (header i ++ bytes.take 59).length ≤ 64 := by
          rw [List.length_append, List.length_take, hh]
          simp only [List.length_cons, List.length_nil]
          omega
        rw [if_pos ⟨ht, hl⟩, hd, ih (i + 1) (bytes.drop 59) (by rw [List.length_drop]; omega)]
        rw [Option.map_some, List.take_append_drop]
      · rw [if_neg h59]
        unfold assemble
        have ht : (header i ++ bytes).take 5 = [1, 1, 5, i / 256 % 256, i % 256] := by rw [hh]; rfl
        have hd : (header i ++ bytes).drop 5 = bytes := by rw [hh]; rfl
        have hl : (header i ++ bytes).length ≤ 64 := by
          rw [List.length_append, hh]
          simp only [List.length_cons, List.length_nil]
          omega
        rw [if_pos ⟨ht, hl⟩, hd]
        simp [assemble]

theorem message_send (op p1 p2 : Nat) (data : List Nat) (h : 5 + data.length < 65536) :
    message (send op p1 p2 data) = some ([224, low op, low p1, low p2, low data.length] ++ data) := by
  unfold message send
  rw [assemble_packets _ 0 _ (Nat.le_refl _)]
  unfold apdu put16
  simp only [List.cons_append, List.nil_append]
  rw [if_pos]
  simp only [List.length_cons, low]
  omega

theorem readLoop_next {a b : Nat} {q : List Nat} (hq : q.length = 59) (hnz : ¬ (a = 0 ∧ b = 0))
    (ps : List (List Nat)) (cap : Nat) (reply : List Nat) :
    readLoop (([1, 1, 5, a, b] ++ q) :: ps) cap reply =
      if q.length < cap - reply.length then readLoop ps cap (reply ++ q)
      else finish (reply ++ q.take (cap - reply.length)) ps := by
  have hg : ¬ (([1, 1, 5, a, b] ++ q).getD 3 0 = 0 ∧ ([1, 1, 5, a, b] ++ q).getD 4 0 = 0) := hnz
  have hd : ([1, 1, 5, a, b] ++ q).drop 5 = q := rfl
  have hl : ([1, 1, 5, a, b] ++ q).length = 64 := by rw [List.length_append, hq]; rfl
  have h3 : ([1, 1, 5, a, b] ++ q).take 3 = [1, 1, 5] := rfl
  conv => lhs; unfold readLoop
  rw [if_neg (fun h => h hl), if_neg (fun h => h h3)]
  simp only [if_neg hg, hd]

theorem readLoop_first {a b : Nat} {q : List Nat} (hq : q.length = 57)
    (ps : List (List Nat)) (cap : Nat) (reply : List Nat) :
    readLoop (([1, 1, 5, 0, 0] ++ (a :: b :: q)) :: ps) cap reply =
      if q.length < a * 256 + b then readLoop ps (a * 256 + b) q
      else finish (q.take (a * 256 + b)) ps := by
  have hg : ([1, 1, 5, 0, 0] ++ (a :: b :: q)).getD 3 0 = 0 ∧ ([1, 1, 5, 0, 0] ++ (a :: b :: q)).getD 4 0 = 0 := ⟨rfl, rfl⟩
  have h5 : ([1, 1, 5, 0, 0] ++ (a :: b :: q)).getD 5 0 = a := rfl
  have h6 : ([1, 1, 5, 0, 0] ++ (a :: b :: q)).getD 6 0 = b := rfl
  have hd : ([1, 1, 5, 0, 0] ++ (a :: b :: q)).drop 7 = q := rfl
  have hl : ([1, 1, 5, 0, 0] ++ (a :: b :: q)).length = 64 := by
    rw [List.length_append]
    simp only [List.length_cons, List.length_nil, hq]
  have h3 : ([1, 1, 5, 0, 0] ++ (a :: b :: q)).take 3 = [1, 1, 5] := rfl
  conv => lhs; unfold readLoop
  rw [if_neg (fun h => h hl), if_neg (fun h => h h3)]
  simp only [if_pos hg, hd, h5, h6, List.length_nil, Nat.sub_zero, List.nil_append]

theorem readLoop_carries {i : Nat} {t : List Nat} {ps : List (List Nat)} (h : Carries i t ps) :
    ∀ {cap : Nat} {reply : List Nat} (rest : List (List Nat)), 1 ≤ i → i + t.length < 65536 →
      cap = reply.length + t.length → readLoop (ps ++ rest) cap reply = finish (reply ++ t) rest := by
  induction h with
  | @last i t pad hlen =>
    intro cap reply rest hi hb hc
    rw [List.cons_append, List.nil_append, readLoop_next (by rw [List.length_append]; exact hlen) (by omega)]
    have hleft : cap - reply.length = t.length := by omega
    rw [hleft, if_neg (by rw [List.length_append]; omega), List.take_left]
  | @more i part t ps hlen hne _ ih =>
    intro cap reply rest hi hb hc
    rw [List.length_append] at hb hc
    have htl : 0 < t.length := List.length_pos_iff.2 hne
    rw [List.cons_append, readLoop_next hlen (by omega), if_pos (by omega),
      ih rest (by omega) (by omega) (by rw [List.length_append]; omega), List.append_assoc]

theorem components_flat (path rest : List Nat) (h : ∀ x ∈ path, x < 4294967296) :
    components path.length (path.flatMap put32 ++ rest) = some (path, rest) := by
  induction path with
  | nil => rfl
  | cons x xs ih =>
    have hx := h x (List.mem_cons_self ..)
    have hi := ih (fun y hy => h y (List.mem_cons_of_mem _ hy))
    rw [List.flatMap_cons, List.length_cons, List.append_assoc]
    show components (xs.length + 1) (low (x / 16777216) :: low (x / 65536) :: low (x / 256) :: low x ::
      (xs.flatMap put32 ++ rest)) = _
    unfold components
    rw [hi]
    have : low (x / 16777216) * 16777216 + low (x / 65536) * 65536 + low (x / 256) * 256 + low x = x := by
      unfold low
      omega
    simp only [Option.map_some, this]

end Ledger
