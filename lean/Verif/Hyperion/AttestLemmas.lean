import Verif.Hyperion.Attest
/-!
# Lemmas about voting on claims

Every operation is a sequence of small steps; invariants are proved for the small steps.
-/
namespace Hyperion.Attest
open Hyperion

variable {hash : Str → Str}

/-- Attestations are stored under the keys of their claims. -/
structure WF (hash : Str → Str) (st : State) : Prop where
  distinct : KV.Distinct st.atts
  keys : ∀ e ∈ st.atts, keyOf hash e.2.claim = e.1

theorem WF.get {st : State} (w : WF hash st) {k : Key} {a : Att} (h : KV.get st.atts k = some a) : keyOf hash a.claim = k :=
  w.keys _ (KV.mem_of_get h)

/-- The small steps an operation consists of. -/
inductive Micro (hash : Str → Str) (x : Env × Op) (st : State) : List Claim → State → Prop
  | vote (c : Claim) (val : Nat) (st' : State) (hop : x.2 = .claim c) (hb : c.basic = true)
      (hv : x.1.validatorOf c.hid c.orch = some val) (hm : val ∈ x.1.bonded) (h : vote hash x.1 st c val = some st') :
      Micro hash x st [] st'
  | clean (hid : Nat) (hop : x.2 = .endBlock hid) (hd : st.due hid = true) : Micro hash x st [] (cleaned st hid)
  | observe (hid : Nat) (att : Att) (hop : x.2 = .endBlock hid) (hg : KV.get st.atts (keyOf hash att.claim) = some att)
      (hh : att.claim.hid = hid) (hu : att.observed = false) (hr : reaches x.1 (required x.1 hid) 0 att.votes = true) :
      Micro hash x st [att.claim] (observe hash x.1 st att)
  | prune (hid : Nat) (att : Att) (hop : x.2 = .endBlock hid) (hg : KV.get st.atts (keyOf hash att.claim) = some att)
      (hh : att.claim.hid = hid) (ho : att.observed = true) (hl : att.claim.nonce < st.lastObs hid) :
      Micro hash x st [] (pruneOne hash x.1 st att)
  | contract (hid start : Nat) (hop : x.2 = .newContract hid start) :
      Micro hash x st []
        { st with
          lastObs := upd st.lastObs hid 1
          lastHeight := upd st.lastHeight hid (start - 1)
          due := upd st.due hid true }
  | blockTime (hid t : Nat) (hop : x.2 = .blockTime hid t) :
      Micro hash x st [] { st with due := upd st.due hid (decide (0 < t)) }

/-- A sequence of small steps. -/
inductive Steps (hash : Str → Str) (x : Env × Op) : State → List Claim → State → Prop
  | refl (st : State) : Steps hash x st [] st
  | cons {st st1 st2 : State} {o os : List Claim} (h : Micro hash x st o st1) (t : Steps hash x st1 os st2) :
      Steps hash x st (o ++ os) st2

theorem Steps.trans {x : Env × Op} {a b c : State} {o1 o2 : List Claim} (h1 : Steps hash x a o1 b) (h2 : Steps hash x b o2 c) :
    Steps hash x a (o1 ++ o2) c := by
  induction h1 with
  | refl => exact h2
  | cons h _ ih =>
    rw [List.append_assoc]
    exact .cons h (ih h2)

theorem Steps.one {x : Env × Op} {a b : State} {o : List Claim} (h : Micro hash x a o b) : Steps hash x a o b := by
  have := Steps.cons h (.refl b)
  rwa [List.append_nil] at this

theorem WF.set {st : State} (w : WF hash st) (a : Att) : WF hash { st with atts := KV.set st.atts (keyOf hash a.claim) a } := by
  refine ⟨KV.distinct_set w.distinct _ _, ?_⟩
  intro e he
  rcases KV.mem_set.1 he with rfl | ⟨he, _⟩
  · rfl
  · exact w.keys _ he

theorem WF.atts {st st' : State} (w : WF hash st) (h : st'.atts = st.atts) : WF hash st' := by
  constructor
  · rw [h]; exact w.distinct
  · rw [h]; exact w.keys

theorem WF.sub {st st' : State} (w : WF hash st) (p : (Key × Att) → Bool) (h : st'.atts = st.atts.filter p) : WF hash st' := by
  constructor
  · rw [h]
    exact List.Nodup.sublist (List.filter_sublist.map _) w.distinct
  · rw [h]
    exact fun e he => w.keys e (List.mem_filter.1 he).1

/-- The attestation found for a claim, or a fresh one. -/
theorem vote_some {env : Env} {st st' : State} {c : Claim} {val : Nat} (h : vote hash env st c val = some st') :
    ∃ att, (KV.get st.atts (keyOf hash c)).getD ⟨c, false, []⟩ = att ∧ att.observed = false ∧
      marked env st c.hid c.nonce = false ∧ (voteCheckFrom < env.height → val ∉ att.votes) ∧
      st' = { st with atts := KV.set st.atts (keyOf hash c) { att with votes := att.votes ++ [val] } } := by
  unfold vote at h
  generalize ha : (KV.get st.atts (keyOf hash c)).getD ⟨c, false, []⟩ = att at h
  refine ⟨att, rfl, ?_⟩
  dsimp only at h
  split at h
  · cases h
  · rename_i h1
    split at h
    · cases h
    · rename_i h2
      split at h
      · cases h
      · rename_i h3
        refine ⟨by simpa using h1, by simpa using h2, ?_, (Option.some.inj h).symm⟩
        intro hh hm
        apply h3
        simp [hh, hm]

theorem vote_key {st : State} (w : WF hash st) {c : Claim} {att : Att}
    (h : (KV.get st.atts (keyOf hash c)).getD ⟨c, false, []⟩ = att) : keyOf hash att.claim = keyOf hash c := by
  cases hg : KV.get st.atts (keyOf hash c) with
  | none => rw [hg] at h; rw [← h]; rfl
  | some a => rw [hg] at h; rw [← h]; exact w.get hg

theorem Micro.wf {x : Env × Op} {st st' : State} {o : List Claim} (w : WF hash st) (h : Micro hash x st o st') : WF hash st' := by
  cases h with
  | vote c val _ hop hb hv hm h =>
    obtain ⟨att, ha, _, _, _, rfl⟩ := vote_some h
    have hk := vote_key w ha
    have := w.set { att with votes := att.votes ++ [val] }
    dsimp only at this
    rwa [hk] at this
  | clean hid hop hd => exact w.sub _ rfl
  | observe hid att hop hg hh hu hr => exact (w.set { att with observed := true }).atts rfl
  | prune hid att hop hg hh ho hl => exact w.sub _ rfl
  | contract hid start hop => exact w.atts rfl
  | blockTime hid t hop => exact w.atts rfl

theorem Steps.wf {x : Env × Op} {st st' : State} {o : List Claim} (w : WF hash st) (h : Steps hash x st o st') : WF hash st' := by
  induction h with
  | refl => exact w
  | cons h _ ih => exact ih (h.wf w)

/-- The list taken at the beginning of a loop still describes the store. -/
structure Snap (hash : Str → Str) (st : State) (hid : Nat) (l : List (Key × Att)) : Prop where
  nodup : (l.map (·.1)).Nodup
  get : ∀ e ∈ l, KV.get st.atts e.1 = some e.2
  keys : ∀ e ∈ l, keyOf hash e.2.claim = e.1
  hid : ∀ e ∈ l, e.2.claim.hid = hid

theorem attsOf_perm (st : State) (hid : Nat) : (attsOf st hid).Perm (st.atts.filter (fun e => decide (e.1.1 = hid))) :=
  StableSort.sortBy_perm _ _

theorem mem_attsOf {st : State} {hid : Nat} {e : Key × Att} : e ∈ attsOf st hid ↔ e ∈ st.atts ∧ e.1.1 = hid := by
  rw [(attsOf_perm st hid).mem_iff, List.mem_filter]
  simp

theorem snap_attsOf {st : State} (w : WF hash st) (hid : Nat) : Snap hash st hid (attsOf st hid) := by
  refine ⟨?_, ?_, ?_, ?_⟩
  · rw [((attsOf_perm st hid).map _).nodup_iff]
    exact List.Nodup.sublist (List.filter_sublist.map _) w.distinct
  · intro e he
    exact KV.get_of_mem w.distinct (mem_attsOf.1 he).1
  · intro e he
    exact w.keys e (mem_attsOf.1 he).1
  · intro e he
    have h := mem_attsOf.1 he
    have := w.keys e h.1
    rw [← h.2, ← this]
    rfl

theorem Snap.tail {st st' : State} {hid : Nat} {e : Key × Att} {l : List (Key × Att)} (s : Snap hash st hid (e :: l))
    (h : ∀ k, k ≠ e.1 → KV.get st'.atts k = KV.get st.atts k) : Snap hash st' hid l := by
  have hn := s.nodup
  rw [List.map_cons, List.nodup_cons] at hn
  refine ⟨hn.2, ?_, fun e' h' => s.keys e' (List.mem_cons_of_mem _ h'), fun e' h' => s.hid e' (List.mem_cons_of_mem _ h')⟩
  intro e' he'
  rw [h e'.1 (fun hc => hn.1 (hc ▸ List.mem_map_of_mem he'))]
  exact s.get e' (List.mem_cons_of_mem _ he')

theorem tallyLoop_steps {env : Env} {hid : Nat} (l : List (Key × Att)) : ∀ st, Snap hash st hid l →
    Steps hash (env, .endBlock hid) st (tallyLoop hash env st l).2 (tallyLoop hash env st l).1 := by
  induction l with
  | nil => intro st _; exact .refl st
  | cons e l ih =>
    intro st s
    simp only [tallyLoop]
    generalize hr : tryAtt hash env st e.2 = r
    unfold tryAtt at hr
    split at hr
    · subst hr
      exact ih st (s.tail fun _ _ => rfl)
    · rename_i ho
      split at hr
      · rename_i hreach
        subst hr
        have hk := s.keys e List.mem_cons_self
        have hg := s.get e List.mem_cons_self
        have hh := s.hid e List.mem_cons_self
        refine .cons (.observe hid e.2 rfl (hk ▸ hg) hh (by simpa using ho) (hh ▸ hreach)) (ih _ (s.tail ?_))
        intro k hne
        show KV.get (KV.set st.atts (keyOf hash e.2.claim) _) k = _
        rw [KV.get_set, if_neg (by rw [hk]; exact hne)]
      · subst hr
        exact ih st (s.tail fun _ _ => rfl)

theorem pruneLoop_steps {env : Env} {hid last : Nat} (l : List (Key × Att)) : ∀ st, st.lastObs hid = last → Snap hash st hid l →
    Steps hash (env, .endBlock hid) st [] (pruneLoop hash env last st l) := by
  induction l with
  | nil => intro st _ _; exact .refl st
  | cons e l ih =>
    intro st hlast s
    simp only [pruneLoop]
    split
    · rename_i hc
      rw [Bool.and_eq_true] at hc
      have hk := s.keys e List.mem_cons_self
      have hg := s.get e List.mem_cons_self
      have hh := s.hid e List.mem_cons_self
      have hm : Micro hash (env, .endBlock hid) st [] (pruneOne hash env st e.2) :=
        .prune hid e.2 rfl (hk ▸ hg) hh hc.2 (hlast ▸ of_decide_eq_true hc.1)
      split
      · exact .one hm
      · refine .cons (o := []) hm (ih _ hlast (s.tail ?_))
        intro k hne
        show KV.get (KV.del st.atts (keyOf hash e.2.claim)) k = _
        rw [KV.get_del, if_neg (by rw [hk]; exact hne)]
    · exact ih st hlast (s.tail fun _ _ => rfl)

theorem step_steps {st : State} (w : WF hash st) (x : Env × Op) : Steps hash x st (step hash st x).2 (step hash st x).1 := by
  obtain ⟨env, op⟩ := x
  cases op with
  | claim c =>
    show Steps hash _ st [] ((submit hash env st c).getD st)
    cases hs : submit hash env st c with
    | none => exact .refl st
    | some st' =>
      unfold submit at hs
      split at hs
      · rename_i hb
        cases hv : env.validatorOf c.hid c.orch with
        | none => rw [hv] at hs; cases hs
        | some val =>
          rw [hv] at hs
          dsimp only at hs
          split at hs
          · rename_i hm
            exact .one (.vote c val st' rfl hb hv (by simpa using hm) hs)
          · cases hs
      · cases hs
  | endBlock hid =>
    show Steps hash _ st (tally hash env (clean st hid) hid).2 (prune hash env (tally hash env (clean st hid) hid).1 hid)
    have h1 : Steps hash (env, .endBlock hid) st [] (clean st hid) := by
      unfold clean
      split
      · rename_i hd
        exact .one (.clean hid rfl hd)
      · exact .refl st
    have w1 := h1.wf w
    have h2 := tallyLoop_steps (env := env) _ (clean st hid) (snap_attsOf w1 hid)
    have w2 := h2.wf w1
    have h3 := pruneLoop_steps (env := env) _ _ rfl (snap_attsOf w2 hid)
    have := (h1.trans h2).trans h3
    rwa [List.nil_append, List.append_nil] at this
  | newContract hid start => exact .one (.contract hid start rfl)
  | blockTime hid t => exact .one (.blockTime hid t rfl)

theorem run_append (st : State) (xs ys : List (Env × Op)) :
    run hash st (xs ++ ys) = ((run hash (run hash st xs).1 ys).1, (run hash st xs).2 ++ (run hash (run hash st xs).1 ys).2) := by
  induction xs generalizing st with
  | nil => simp [run]
  | cons x xs ih =>
    simp only [List.cons_append, run]
    rw [ih]
    simp

theorem run_snoc (st : State) (xs : List (Env × Op)) (x : Env × Op) :
    run hash st (xs ++ [x]) =
      ((step hash (run hash st xs).1 x).1, (run hash st xs).2 ++ (step hash (run hash st xs).1 x).2) := by
  rw [run_append]
  simp [run]

theorem wf_init (lo lh : Nat → Nat) : WF hash (init lo lh) := by
  constructor
  · exact List.nodup_nil
  · intro e he; cases he

theorem snoc_ind {α : Type} {P : List α → Prop} (h0 : P []) (hs : ∀ l x, P l → P (l ++ [x])) : ∀ l, P l := by
  intro l
  have : ∀ n (l : List α), l.length = n → P l := by
    intro n
    induction n with
    | zero =>
      intro l hl
      rw [List.eq_nil_of_length_eq_zero hl]
      exact h0
    | succ n ih =>
      intro l hl
      have hne : l ≠ [] := by rintro rfl; simp at hl
      rw [← List.dropLast_concat_getLast hne]
      apply hs
      apply ih
      rw [List.length_dropLast, hl]
      rfl
  exact this _ l rfl

theorem run_wf (lo lh : Nat → Nat) : ∀ hist, WF hash (run hash (init lo lh) hist).1 := by
  apply snoc_ind
  · exact wf_init lo lh
  · intro l x ih
    rw [run_snoc]
    exact (step_steps ih x).wf ih

/-- Invariants of histories are proved for the small steps. -/
theorem run_ind {lo lh : Nat → Nat} (P : List (Env × Op) → List Claim → State → Prop) (h0 : P [] [] (init lo lh))
    (ext : ∀ h o st x, P h o st → P (h ++ [x]) o st)
    (mic : ∀ h x o st o' st', WF hash st → P (h ++ [x]) o st → Micro hash x st o' st' → P (h ++ [x]) (o ++ o') st') :
    ∀ hist, P hist (run hash (init lo lh) hist).2 (run hash (init lo lh) hist).1 := by
  apply snoc_ind
  · exact h0
  · intro l x ih
    rw [run_snoc]
    have w := run_wf (hash := hash) lo lh l
    have hs := step_steps w x
    have key : ∀ {a : State} {os : List Claim} {b : State}, Steps hash x a os b → WF hash a → ∀ o, P (l ++ [x]) o a →
        P (l ++ [x]) (o ++ os) b := by
      intro a os b hs
      induction hs with
      | refl => intro _ o h; rwa [List.append_nil]
      | cons hm _ ih2 =>
        intro w o h
        rw [← List.append_assoc]
        exact ih2 (hm.wf w) _ (mic _ _ _ _ _ _ w h hm)
    exact key hs w _ (ext _ _ _ _ ih)

/-! ## The threshold -/

theorem reaches_iff {env : Env} {req : Nat} : ∀ {acc : Nat} {vs : List Nat},
    reaches env req acc vs = true ↔ vs ≠ [] ∧ req ≤ acc + (vs.map env.power).sum
  | acc, [] => by simp [reaches]
  | acc, v :: vs => by
    unfold reaches
    simp only [List.map_cons, List.sum_cons]
    split
    · simp
      omega
    · rename_i h
      rw [reaches_iff (acc := acc + env.power v) (vs := vs)]
      constructor
      · rintro ⟨_, h2⟩
        exact ⟨by simp, by omega⟩
      · rintro ⟨_, h2⟩
        refine ⟨?_, by omega⟩
        rintro rfl
        simp at h2
        omega

end Hyperion.Attest
