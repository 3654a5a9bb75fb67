import Verif.Rpc.ReceiptsSpec
import Verif.Rpc.IndexLemmas3
/-!
# Lemmas on receipts
-/

namespace EthIndex

/-! ## Logs -/

theorem txLogs_ante (ms : List Msg) : ∀ (idx j : Nat) (es : List Event),
    txLogs (anteEvents idx ms ++ es) j = txLogs es j := by
  induction ms with
  | nil => intro _ _ _; rfl
  | cons m ms ih => intro idx j es; exact ih (idx + 1) j es

theorem txLogs_msg (ms : List Msg) : ∀ (idx j : Nat), txLogs (msgEvents idx ms) j = (ms[j]?).map (·.logs) := by
  induction ms with
  | nil => intro _ _; rfl
  | cons m ms ih =>
    intro idx j
    show (if j > 0 then txLogs (.other :: msgEvents (idx + 1) ms) (j - 1) else some m.logs) = _
    cases j with
    | zero => rfl
    | succ j =>
      rw [if_pos (by omega), List.getElem?_cons_succ]
      exact ih (idx + 1) j

theorem txLogs_exec (idx : Nat) (s : Step) (h : s.fate = .ok) (he : s.tx.ext = true) (j : Nat) (m : Msg)
    (hm : s.tx.eths[j]? = some m) : txLogs (exec idx s).1.events j = some m.logs := by
  unfold exec
  rw [h]
  dsimp only
  rw [if_pos he]
  dsimp only
  rw [txLogs_ante, txLogs_msg, hm]; rfl

theorem txLogs_spent (idx : Nat) (s : Step) (h : s.fate = .spent) (j : Nat) :
    txLogs (exec idx s).1.events j = none := by
  unfold exec
  rw [h]
  dsimp only
  split
  · have := txLogs_ante s.tx.eths idx j []
    rw [List.append_nil] at this
    rw [this]; rfl
  · rfl

/-! ## Results -/

theorem exec_gas (idx : Nat) (s : Step) : (exec idx s).1.gasUsed = s.gas := by
  unfold exec
  cases s.fate with
  | ok => dsimp only; split <;> rfl
  | spent => rfl
  | refused a => rfl

theorem execBlock_gas (ss : List Step) : ∀ (idx n : Nat),
    (((execBlock idx ss).take n).map (·.2.gasUsed)).sum = gasBefore ss n := by
  unfold gasBefore
  induction ss with
  | nil => intro idx n; cases n <;> rfl
  | cons s ss ih =>
    intro idx n
    cases n with
    | zero => rfl
    | succ n =>
      unfold execBlock
      rw [List.take_succ_cons, List.take_succ_cons, List.map_cons, List.map_cons, List.sum_cons, List.sum_cons,
        exec_gas, ih]

theorem execBlock_length (ss : List Step) : ∀ idx, (execBlock idx ss).length = ss.length := by
  induction ss with
  | nil => intro _; rfl
  | cons s ss ih => intro idx; unfold execBlock; rw [List.length_cons, List.length_cons, ih]

/-- A place, its step and its result. -/
theorem place_result (ss : List Step) (hs : ∀ s ∈ ss, Sound s) (k : Nat) (p : Place)
    (h : (places 0 ss)[k]? = some p) :
    ∃ (s : Step) (idx : Nat), ss[p.tx]? = some s ∧ (execBlock 0 ss)[p.tx]? = some (s.tx, (exec idx s).1) ∧
      s.tx.eths[p.msg]? = some p.m ∧ s.tx.msgs = s.tx.eths.map some ∧ s.tx.ext = true ∧ s.tx.decodes = true ∧
      (p.ran = true ∧ s.fate = .ok ∧ s.gas = (s.tx.eths.map (·.used)).sum ∨ p.ran = false ∧ s.fate = .spent) := by
  obtain ⟨_, s, h1, h2, h3, h4⟩ := places_at ss 0 k p h
  rw [Nat.sub_zero] at h1
  obtain ⟨idx, h5⟩ := execBlock_get ss 0 p.tx s h1
  rcases hs s (List.mem_of_getElem? h1) with ⟨a, ha⟩ | ⟨hd, ⟨he, hm, hg⟩ | ⟨_, hn⟩⟩
  · exact absurd ha (h4 a)
  · refine ⟨s, idx, h1, h5, h2, hm, he, hd, ?_⟩
    cases hr : p.ran with
    | true => exact .inl ⟨rfl, h3.1 hr, hg (h3.1 hr)⟩
    | false =>
      refine .inr ⟨rfl, ?_⟩
      cases hf : s.fate with
      | ok => exact absurd (h3.2 hf) (by rw [hr]; decide)
      | spent => rfl
      | refused a => exact absurd hf (h4 a)
  · rw [hn] at h2; simp at h2

theorem place_logs (ss : List Step) (hs : ∀ s ∈ ss, Sound s) (k : Nat) (p : Place)
    (h : (places 0 ss)[k]? = some p) :
    ∃ (t : Tx) (res : Result), (execBlock 0 ss)[p.tx]? = some (t, res) ∧
      (txLogs res.events p.msg).getD [] = if p.ran then p.m.logs else [] := by
  obtain ⟨s, idx, _, h2, h3, _, he, _, h5⟩ := place_result ss hs k p h
  refine ⟨_, _, h2, ?_⟩
  rcases h5 with ⟨hr, hf, _⟩ | ⟨hr, hf⟩
  · rw [hr, txLogs_exec idx s hf he p.msg p.m h3]; rfl
  · rw [hr, txLogs_spent idx s hf]; rfl

/-! ## The map of a block -/

theorem infoMap_get (es : List (Nat × Info)) : ∀ (m : List (Nat × Info)) (x : Nat) (v : Info),
    (es.map (·.1)).Nodup → (x, v) ∈ es → KV.get (es.foldl (fun m e => KV.set m e.1 e.2) m) x = some v := by
  have keep : ∀ (es : List (Nat × Info)) (m : List (Nat × Info)) (x : Nat), (∀ e ∈ es, e.1 ≠ x) →
      KV.get (es.foldl (fun m e => KV.set m e.1 e.2) m) x = KV.get m x := by
    intro es
    induction es with
    | nil => intro m x _; rfl
    | cons e es ih =>
      intro m x h
      rw [List.foldl_cons, ih _ x (fun e' he' => h e' (.tail _ he')), KV.get_set,
        if_neg (fun e' => h e (.head _) e'.symm)]
  induction es with
  | nil => intro m x v _ h; exact (List.not_mem_nil h).elim
  | cons e es ih =>
    intro m x v hd hm
    rw [List.map_cons, List.nodup_cons] at hd
    rw [List.foldl_cons]
    rcases List.mem_cons.1 hm with rfl | hm
    · rw [keep es _ _ (fun e' he' e'' => hd.1 (List.mem_map.2 ⟨e', he', e''⟩)), KV.get_set, if_pos rfl]
    · exact ih _ x v hd.2 hm

theorem infoMsgs_keys (i : Nat) (r : Result) (ms : List (Option Msg)) : ∀ j,
    (infoMsgs i r j ms).map (·.1) = (ms.filterMap id).map (·.hash) := by
  induction ms with
  | nil => intro _; rfl
  | cons a ms ih =>
    intro j
    cases a with
    | none => exact ih (j + 1)
    | some m => simp only [infoMsgs, List.map_cons, ih, List.filterMap_cons_some (f := id) (b := m) rfl]

theorem infos_keys (ss : List Step) : ∀ (idx i : Nat), (infos i (execBlock idx ss)).map (·.1) = allHashes ss := by
  induction ss with
  | nil => intro _ _; rfl
  | cons s ss ih =>
    intro idx i
    unfold execBlock infos allHashes
    rw [List.map_append, List.flatMap_cons, ih]
    congr 1
    split
    · rw [infoMsgs_keys]; rfl
    · rfl

theorem infoMsgs_mem (i : Nat) (r : Result) (ms : List Msg) : ∀ (j k : Nat) (m : Msg), ms[k]? = some m →
    (m.hash, (⟨i, j + k, r.gasUsed, !counts r⟩ : Info)) ∈ infoMsgs i r j (ms.map some) := by
  induction ms with
  | nil => intro _ k m h; simp at h
  | cons a ms ih =>
    intro j k m h
    rw [List.map_cons]
    unfold infoMsgs
    cases k with
    | zero => simp only [List.getElem?_cons_zero, Option.some.injEq] at h; subst h; exact .head _
    | succ k =>
      rw [List.getElem?_cons_succ] at h
      refine .tail _ ?_
      have := ih (j + 1) k m h
      rw [show j + 1 + k = j + (k + 1) by omega] at this
      exact this

theorem infos_mem (b : List (Tx × Result)) : ∀ (i n : Nat) (t : Tx) (r : Result) (e : Nat × Info), b[n]? = some (t, r) →
    t.decodes = true → e ∈ infoMsgs (i + n) r 0 t.msgs → e ∈ infos i b := by
  induction b with
  | nil => intro _ n t r e h; simp at h
  | cons a b ih =>
    intro i n t r e h hd he
    obtain ⟨t', r'⟩ := a
    unfold infos
    rw [List.mem_append]
    cases n with
    | zero =>
      simp only [List.getElem?_cons_zero, Option.some.injEq, Prod.mk.injEq] at h
      obtain ⟨rfl, rfl⟩ := h
      exact .inl (by rw [if_pos hd]; exact he)
    | succ n =>
      rw [List.getElem?_cons_succ] at h
      exact .inr (ih (i + 1) n t r e h hd (by rw [show i + 1 + n = i + (n + 1) by omega]; exact he))

theorem counts_exec (idx : Nat) (s : Step) (h : s.fate = .ok ∨ s.fate = .spent) : counts (exec idx s).1 = true := by
  unfold exec
  rcases h with h | h
  · rw [h]; dsimp only; split <;> rfl
  · rw [h]; rfl

/-- What the map has for a place. -/
theorem infoMap_place (ss : List Step) (hs : ∀ s ∈ ss, Sound s) (hd : (allHashes ss).Nodup) (k : Nat) (p : Place)
    (h : (places 0 ss)[k]? = some p) :
    ∃ s, ss[p.tx]? = some s ∧
      KV.get (infoMap (infos 0 (execBlock 0 ss))) p.m.hash = some ⟨p.tx, p.msg, s.gas, false⟩ := by
  obtain ⟨s, idx, h1, h2, h3, h4, _, h6, h7⟩ := place_result ss hs k p h
  refine ⟨s, h1, ?_⟩
  apply infoMap_get _ _ _ _ (by rw [infos_keys]; exact hd)
  apply infos_mem _ 0 p.tx s.tx (exec idx s).1 _ h2 h6
  rw [h4, Nat.zero_add]
  have := infoMsgs_mem p.tx (exec idx s).1 s.tx.eths 0 p.msg p.m h3
  rw [Nat.zero_add, exec_gas, counts_exec idx s (h7.elim (fun h => .inl h.2.1) (fun h => .inr h.2))] at this
  exact this

/-! ## The receipts of a block -/

/-- The gas of the Cosmos transaction of a place. -/
def stepGas (ss : List Step) (p : Place) : Nat := match ss[p.tx]? with | none => 0 | some s => s.gas

theorem receiptLoop_places (height : Nat) (ss : List Step) (hs : ∀ s ∈ ss, Sound s) (hd : (allHashes ss).Nodup)
    (ps : List Place) : ∀ (cum n : Nat), (∀ (k : Nat) (p : Place), ps[k]? = some p → (places 0 ss)[n + k]? = some p) →
    (receiptLoop height (execBlock 0 ss) (infoMap (infos 0 (execBlock 0 ss))) cum n (ps.map (·.m))).length = ps.length ∧
    ∀ (k : Nat) (p : Place), ps[k]? = some p →
      (receiptLoop height (execBlock 0 ss) (infoMap (infos 0 (execBlock 0 ss))) cum n (ps.map (·.m)))[k]?
        = some ⟨p.m.hash, true, cum + ((ps.take (k + 1)).map (stepGas ss)).sum, if p.ran then p.m.logs else [],
          stepGas ss p, height, n + k⟩ := by
  induction ps with
  | nil => intro cum n _; exact ⟨rfl, fun k p h => by simp at h⟩
  | cons a ps ih =>
    intro cum n h
    have ha := h 0 a rfl
    obtain ⟨s, h1, h2⟩ := infoMap_place ss hs hd _ a ha
    obtain ⟨t, res, h3, h4⟩ := place_logs ss hs _ a ha
    have hg : stepGas ss a = s.gas := by unfold stepGas; rw [h1]
    have hrec := ih (cum + s.gas) (n + 1) (fun k p hk => by
      rw [show n + 1 + k = n + (k + 1) by omega]; exact h (k + 1) p (by rw [List.getElem?_cons_succ]; exact hk))
    have hun : receiptLoop height (execBlock 0 ss) (infoMap (infos 0 (execBlock 0 ss))) cum n ((a :: ps).map (·.m))
        = ⟨a.m.hash, true, cum + s.gas, if a.ran then a.m.logs else [], s.gas, height, n⟩ ::
          receiptLoop height (execBlock 0 ss) (infoMap (infos 0 (execBlock 0 ss))) (cum + s.gas) (n + 1) (ps.map (·.m)) := by
      rw [List.map_cons]
      conv => lhs; unfold receiptLoop
      rw [h2]
      dsimp only
      rw [h3]
      dsimp only
      rw [h4]; rfl
    rw [hun]
    refine ⟨by rw [List.length_cons, hrec.1, List.length_cons], fun k p hk => ?_⟩
    cases k with
    | zero =>
      simp only [List.getElem?_cons_zero, Option.some.injEq] at hk
      subst hk
      simp only [List.getElem?_cons_zero, List.take_succ_cons, List.take_zero, List.map_cons, List.map_nil,
        List.sum_cons, List.sum_nil, hg, Nat.add_zero]
    | succ k =>
      rw [List.getElem?_cons_succ] at hk ⊢
      rw [hrec.2 k p hk, List.take_succ_cons, List.map_cons, List.sum_cons, hg]
      rw [show n + 1 + k = n + (k + 1) by omega, Nat.add_assoc]

/-! ## Cumulative gas -/

theorem placesIn_before (i : Nat) (o : Bool) (ms : List Msg) : ∀ (j b k : Nat) (p : Place),
    (placesIn i o j b ms)[k]? = some p →
    p.before = b + ((ms.take k).map (fun m => if o then m.used else m.gas)).sum := by
  induction ms with
  | nil => intro _ _ k p h; simp [placesIn] at h
  | cons m ms ih =>
    intro j b k p h
    cases k with
    | zero =>
      simp only [placesIn, List.getElem?_cons_zero, Option.some.injEq] at h
      subst h; rfl
    | succ k =>
      simp only [placesIn, List.getElem?_cons_succ] at h
      rw [ih _ _ _ _ h, List.take_succ_cons, List.map_cons, List.sum_cons, ← Nat.add_assoc]
      rfl

theorem sum_take_le (l : List Nat) : ∀ k x, l[k]? = some x → (l.take k).sum + x ≤ l.sum := by
  induction l with
  | nil => intro k x h; simp at h
  | cons a l ih =>
    intro k x h
    cases k with
    | zero =>
      simp only [List.getElem?_cons_zero, Option.some.injEq] at h
      subst h; simp
    | succ k =>
      rw [List.getElem?_cons_succ] at h
      have := ih k x h
      rw [List.take_succ_cons, List.sum_cons, List.sum_cons]; omega

/-- Within its transaction a place pays no more than the transaction's gas. -/
theorem before_paid (ss : List Step) (hc : ∀ s ∈ ss, Covers s) : ∀ (i k : Nat) (p : Place), (places i ss)[k]? = some p →
    ∃ s, ss[p.tx - i]? = some s ∧ p.before + p.paid ≤ s.gas := by
  induction ss with
  | nil => intro i k p h; simp [places] at h
  | cons s ss ih =>
    intro i k p h
    have hcs : ∀ s' ∈ ss, Covers s' := fun s' h => hc s' (.tail _ h)
    have rest : ∀ k' : Nat, (places (i + 1) ss)[k']? = some p → ∃ s', (s :: ss)[p.tx - i]? = some s' ∧ p.before + p.paid ≤ s'.gas := by
      intro k' h'
      obtain ⟨hle, _⟩ := places_at ss (i + 1) k' p h'
      obtain ⟨s', a, b⟩ := ih hcs (i + 1) k' p h'
      exact ⟨s', by rw [show p.tx - i = (p.tx - (i + 1)) + 1 by omega, List.getElem?_cons_succ]; exact a, b⟩
    have key : ∀ (o : Bool), ((s.tx.eths.map (fun m => if o then m.used else m.gas)).sum ≤ s.gas) →
        (placesIn i o 0 0 s.tx.eths ++ places (i + 1) ss)[k]? = some p →
        ∃ s', (s :: ss)[p.tx - i]? = some s' ∧ p.before + p.paid ≤ s'.gas := by
      intro o ho h
      rw [List.getElem?_append] at h
      split at h
      · obtain ⟨h1, _, h3, h4⟩ := placesIn_get i o s.tx.eths 0 0 k p h
        refine ⟨s, by rw [h1, Nat.sub_self]; rfl, ?_⟩
        rw [placesIn_before i o s.tx.eths 0 0 k p h, Nat.zero_add, List.map_take]
        have hp : p.paid = if o then p.m.used else p.m.gas := by unfold Place.paid; rw [h4]
        rw [hp]
        exact Nat.le_trans (sum_take_le _ k _ (by rw [List.getElem?_map, h3]; rfl)) ho
      · exact rest _ h
    unfold places at h
    have hcov := hc s (.head _)
    unfold Covers at hcov
    cases hf : s.fate with
    | ok => rw [hf] at h hcov; exact key true hcov h
    | spent => rw [hf] at h hcov; exact key false hcov h
    | refused a =>
      rw [hf] at h
      dsimp only at h
      rw [List.nil_append] at h
      exact rest k h

theorem gasBefore_mono (ss : List Step) : ∀ (a b : Nat) (s : Step), a < b → ss[a]? = some s →
    gasBefore ss a + s.gas ≤ gasBefore ss b := by
  unfold gasBefore
  induction ss with
  | nil => intro a b s _ h; simp at h
  | cons x ss ih =>
    intro a b s hab h
    cases b with
    | zero => omega
    | succ b =>
      rw [List.take_succ_cons, List.map_cons, List.sum_cons]
      cases a with
      | zero =>
        simp only [List.getElem?_cons_zero, Option.some.injEq] at h
        subst h; simp
      | succ a =>
        rw [List.getElem?_cons_succ] at h
        rw [List.take_succ_cons, List.map_cons, List.sum_cons]
        have := ih a b s (by omega) h
        omega

/-- Places are in the order of their transactions and messages. -/
theorem places_order (ss : List Step) : ∀ (i k k' : Nat) (p p' : Place), k < k' → (places i ss)[k]? = some p →
    (places i ss)[k']? = some p' → p.tx < p'.tx ∨ (p.tx = p'.tx ∧ p.before + p.paid ≤ p'.before) := by
  induction ss with
  | nil => intro i k k' p p' _ h; simp [places] at h
  | cons s ss ih =>
    intro i k k' p p' hk h h'
    have inner : ∀ (o : Bool) (ms : List Msg) (j b k k' : Nat), k < k' → (placesIn i o j b ms)[k]? = some p →
        (placesIn i o j b ms)[k']? = some p' → p.before + p.paid ≤ p'.before := by
      intro o ms
      induction ms with
      | nil => intro _ _ k _ _ h; simp [placesIn] at h
      | cons m ms ihm =>
        intro j b k k' hk h h'
        cases k' with
        | zero => omega
        | succ k' =>
          cases k with
          | zero =>
            simp only [placesIn, List.getElem?_cons_zero, Option.some.injEq] at h
            simp only [placesIn, List.getElem?_cons_succ] at h'
            rw [placesIn_before i o ms _ _ _ _ h', ← h]
            exact Nat.le_add_right _ _
          | succ k =>
            simp only [placesIn, List.getElem?_cons_succ] at h h'
            exact ihm _ _ _ _ (by omega) h h'
    have key : ∀ (o : Bool), (placesIn i o 0 0 s.tx.eths ++ places (i + 1) ss)[k]? = some p →
        (placesIn i o 0 0 s.tx.eths ++ places (i + 1) ss)[k']? = some p' →
        p.tx < p'.tx ∨ (p.tx = p'.tx ∧ p.before + p.paid ≤ p'.before) := by
      intro o h h'
      rw [List.getElem?_append] at h h'
      split at h
      · obtain ⟨h1, _⟩ := placesIn_get i o s.tx.eths 0 0 k p h
        split at h'
        · obtain ⟨h2, _⟩ := placesIn_get i o s.tx.eths 0 0 k' p' h'
          exact .inr ⟨by omega, inner o _ _ _ _ _ hk h h'⟩
        · obtain ⟨h2, _⟩ := places_at ss (i + 1) _ p' h'
          exact .inl (by omega)
      · split at h'
        · omega
        · exact ih (i + 1) _ _ p p' (by omega) h h'
    unfold places at h h'
    cases hf : s.fate with
    | ok => rw [hf] at h h'; exact key true h h'
    | spent => rw [hf] at h h'; exact key false h h'
    | refused a =>
      rw [hf] at h h'
      dsimp only at h h'
      rw [List.nil_append] at h h'
      exact ih (i + 1) _ _ p p' hk h h'

end EthIndex
