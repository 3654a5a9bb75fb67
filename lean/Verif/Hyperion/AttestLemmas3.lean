import Verif.Hyperion.AttestLemmas2
/-!
# Every vote is counted, and two majorities overlap
-/
namespace Hyperion.Attest
open Hyperion

variable {hash : Str → Str}

/-- The vote of `v` for `k` is stored, or an event with this nonce has taken effect. -/
def Handled (o : List Claim) (st : State) (k : Key) (v : Nat) : Prop :=
  (∃ c ∈ o, c.hid = k.1 ∧ c.nonce = k.2.1) ∨ ∃ a, KV.get st.atts k = some a ∧ v ∈ a.votes

theorem handled_micro {x : Env × Op} {o o' : List Claim} {st st' : State} {k : Key} {v : Nat} (i : Marks hash o st)
    (hm : Micro hash x st o' st') (hr : (∀ hid start, x.2 ≠ .newContract hid start) ∧ (∀ hid t, x.2 ≠ .blockTime hid t))
    (h : Handled o st k v) : Handled (o ++ o') st' k v := by
  rcases h with ⟨c, hc, h⟩ | ⟨a, hg, hv⟩
  · exact Or.inl ⟨c, List.mem_append_left _ hc, h⟩
  · cases hm with
    | vote c val _ hop hb hv' hm hvote =>
      obtain ⟨att, ha, hobs, hmk, hnv, rfl⟩ := vote_some hvote
      right
      show ∃ a, KV.get (KV.set st.atts _ _) k = some a ∧ v ∈ a.votes
      rw [KV.get_set]
      split
      · rename_i hk
        subst hk
        rw [hg] at ha
        have ha : a = att := ha
        refine ⟨_, rfl, ?_⟩
        rw [← ha]
        exact List.mem_append_left _ hv
      · exact ⟨a, hg, hv⟩
    | clean hid hop hd =>
      rw [i.due hid] at hd
      cases hd
    | observe hid att hop hg' hh' hu hreach =>
      right
      show ∃ a, KV.get (KV.set st.atts _ _) k = some a ∧ v ∈ a.votes
      rw [KV.get_set]
      split
      · rename_i hk
        subst hk
        rw [hg] at hg'
        cases hg'
        exact ⟨_, rfl, hv⟩
      · exact ⟨a, hg, hv⟩
    | prune hid att hop hg' hh' ho hl =>
      by_cases hk : k = keyOf hash att.claim
      · left
        obtain ⟨c, hc, hck⟩ := i.observed _ _ hg' ho
        refine ⟨c, List.mem_append_left _ hc, ?_⟩
        rw [hk, ← hck]
        exact ⟨rfl, rfl⟩
      · right
        refine ⟨a, ?_, hv⟩
        show KV.get (KV.del st.atts _) k = some a
        rw [KV.get_del, if_neg hk]
        exact hg
    | contract hid start hop => exact absurd hop (hr.1 hid start)
    | blockTime hid t hop => exact absurd hop (hr.2 hid t)

theorem handled_steps {x : Env × Op} {st st' : State} {os : List Claim} (hs : Steps hash x st os st')
    (hgt : marksFrom ≤ x.1.height) (hr : (∀ hid start, x.2 ≠ .newContract hid start) ∧ (∀ hid t, x.2 ≠ .blockTime hid t)) :
    ∀ (o : List Claim), Marks hash o st → ∀ k v, Handled o st k v → Handled (o ++ os) st' k v := by
  induction hs with
  | refl => intro o _ k v h; rwa [List.append_nil]
  | cons hm _ ih =>
    intro o i k v h
    rw [← List.append_assoc]
    exact ih _ (marks_micro i hm hgt hr) k v (handled_micro i hm hr h)

theorem run_handled (lo lh : Nat → Nat) : ∀ hist : List (Env × Op), NoReset hist → From marksFrom hist → ∀ k v, Sent hash hist k v →
    Handled (run hash (init lo lh) hist).2 (run hash (init lo lh) hist).1 k v := by
  apply snoc_ind
  · intro _ _ k v hs
    obtain ⟨env, c, h, _⟩ := hs
    cases h
  · intro l x ih hr hh k v hs
    have hr' : NoReset l := fun y hy => hr y (List.mem_append_left _ hy)
    have hh' : From marksFrom l := fun y hy => hh y (List.mem_append_left _ hy)
    have hx : x ∈ l ++ [x] := by simp
    have i := run_marks (hash := hash) lo lh l hr' hh'
    have w := run_wf (hash := hash) lo lh l
    rw [run_snoc]
    obtain ⟨env, c, hmem, hb, hk, hv, hbond⟩ := hs
    rcases List.mem_append.1 hmem with hmem | hmem
    · exact handled_steps (step_steps w x) (hh x hx) (hr x hx) _ i k v (ih hr' hh' k v ⟨env, c, hmem, hb, hk, hv, hbond⟩)
    · rw [List.mem_singleton] at hmem
      subst hmem
      generalize (run hash (init lo lh) l).1 = st at *
      generalize (run hash (init lo lh) l).2 = o at *
      have hgt : marksFrom ≤ env.height := hh _ hx
      show Handled (o ++ []) ((submit hash env st c).getD st) k v
      rw [List.append_nil]
      have hsub : submit hash env st c = vote hash env st c v := by
        unfold submit
        rw [if_pos hb, hv]
        dsimp only
        rw [if_pos (by simpa using hbond)]
      rw [hsub]
      subst hk
      cases hvote : vote hash env st c v with
      | some st' =>
        obtain ⟨att, ha, hobs, hmk, hnv, rfl⟩ := vote_some hvote
        right
        show ∃ a, KV.get (KV.set st.atts _ _) _ = some a ∧ v ∈ a.votes
        rw [KV.get_set, if_pos rfl]
        exact ⟨_, rfl, by simp⟩
      | none =>
        unfold vote at hvote
        generalize ha : (KV.get st.atts (keyOf hash c)).getD ⟨c, false, []⟩ = att at hvote
        dsimp only at hvote
        have hget : att.observed = true ∨ v ∈ att.votes → KV.get st.atts (keyOf hash c) = some att := by
          intro hor
          cases hg : KV.get st.atts (keyOf hash c) with
          | none =>
            rw [hg] at ha
            rw [← ha] at hor
            rcases hor with h | h <;> cases h
          | some a =>
            rw [hg] at ha
            exact congrArg some ha
        split at hvote
        · rename_i ho
          left
          obtain ⟨c', hc', hk⟩ := i.observed _ _ (hget (Or.inl ho)) ho
          exact ⟨c', hc', congrArg (·.1) hk, congrArg (·.2.1) hk⟩
        · split at hvote
          · rename_i hm
            left
            unfold marked at hm
            rw [Bool.and_eq_true] at hm
            exact i.applied c.hid c.nonce (by simpa using hm.2)
          · split at hvote
            · rename_i hd
              rw [Bool.and_eq_true] at hd
              have hd : v ∈ att.votes := by simpa using hd.2
              exact Or.inr ⟨att, hget (Or.inr hd), hd⟩
            · cases hvote

/-- After the tally every attestation of the chain with enough votes is observed. -/
theorem tallyLoop_done {env : Env} {hid : Nat} (l : List (Key × Att)) : ∀ st, Snap hash st hid l → ∀ e ∈ l,
    e.2.observed = true ∨ reaches env (required env hid) 0 e.2.votes = false ∨ e.2.claim ∈ (tallyLoop hash env st l).2 := by
  induction l with
  | nil => intro st _ e he; cases he
  | cons d l ih =>
    intro st s e he
    simp only [tallyLoop]
    generalize hr : tryAtt hash env st d.2 = r
    have hsnap : Snap hash r.1 hid l := by
      apply s.tail
      intro k hne
      rw [← hr]
      unfold tryAtt
      split
      · rfl
      · split
        · show KV.get (KV.set st.atts (keyOf hash d.2.claim) _) k = _
          rw [KV.get_set, if_neg (by rw [s.keys d List.mem_cons_self]; exact hne)]
        · rfl
    rcases List.mem_cons.1 he with rfl | he
    · have hh := s.hid e List.mem_cons_self
      by_cases ho : e.2.observed = true
      · exact Or.inl ho
      · by_cases hre : reaches env (required env hid) 0 e.2.votes = true
        · right; right
          apply List.mem_append_left
          rw [← hr]
          unfold tryAtt
          rw [if_neg ho, hh, if_pos hre]
          exact List.mem_singleton.2 rfl
        · right; left
          simpa using hre
    · rcases ih r.1 hsnap e he with h | h | h
      · exact Or.inl h
      · exact Or.inr (Or.inl h)
      · exact Or.inr (Or.inr (List.mem_append_right _ h))

/-! ## Overlap -/

theorem sum_perm_filter {B vs : List Nat} (p : Nat → Nat) (hB : B.Nodup) (hv : vs.Nodup) (hsub : ∀ v ∈ vs, v ∈ B) :
    (vs.map p).sum = ((B.filter (fun v => decide (v ∈ vs))).map p).sum := by
  apply List.Perm.sum_nat
  apply List.Perm.map
  rw [List.perm_ext_iff_of_nodup hv (hB.sublist List.filter_sublist)]
  intro v
  rw [List.mem_filter]
  constructor
  · intro h; exact ⟨hsub v h, by simpa using h⟩
  · rintro ⟨_, h⟩; simpa using h

theorem sum_overlap (p : Nat → Nat) (a b d : Nat → Bool) (hd : ∀ v, a v = true → b v = true → d v = true) (B : List Nat) :
    ((B.filter a).map p).sum + ((B.filter b).map p).sum ≤ (B.map p).sum + ((B.filter d).map p).sum := by
  induction B with
  | nil => simp
  | cons v B ih =>
    have := hd v
    simp only [List.filter_cons, List.map_cons, List.sum_cons]
    cases ha : a v <;> cases hb : b v <;> cases hdv : d v <;> simp_all <;> omega

end Hyperion.Attest
