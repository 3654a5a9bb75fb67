import Verif.Hyperion.AttestLemmas
/-!
# Invariants of voting on claims
-/
namespace Hyperion.Attest
open Hyperion

variable {hash : Str → Str}

/-- Validator `v`, bonded at the time, sent a well-formed claim with key `k` through its orchestrator. -/
def Sent (hash : Str → Str) (hist : List (Env × Op)) (k : Key) (v : Nat) : Prop :=
  ∃ env c, (env, Op.claim c) ∈ hist ∧ c.basic = true ∧ keyOf hash c = k ∧ env.validatorOf c.hid c.orch = some v ∧
    v ∈ env.bonded

/-- All operations take place after the given height. -/
def After (n : Nat) (hist : List (Env × Op)) : Prop := ∀ x ∈ hist, n < x.1.height

/-- At some end of block in the history the distinct validators that had sent the claim had the required power. -/
def Justified (hash : Str → Str) (hist : List (Env × Op)) (c : Claim) : Prop :=
  ∃ before env rest vs, hist = before ++ (env, Op.endBlock c.hid) :: rest ∧ vs.Nodup ∧ vs ≠ [] ∧
    (∀ v ∈ vs, Sent hash before (keyOf hash c) v) ∧
    ((env.bonded.filter (env.keyed c.hid)).map env.power).sum * 66 / 100 ≤ (vs.map env.power).sum

theorem Sent.mono {h h' : List (Env × Op)} {k : Key} {v : Nat} (hs : Sent hash h k v) (hm : ∀ x ∈ h, x ∈ h') :
    Sent hash h' k v := by
  obtain ⟨env, c, h1, h2⟩ := hs
  exact ⟨env, c, hm _ h1, h2⟩

theorem Justified.snoc {h : List (Env × Op)} {c : Claim} (hj : Justified hash h c) (x : Env × Op) : Justified hash (h ++ [x]) c := by
  obtain ⟨before, env, rest, vs, h1, h2⟩ := hj
  exact ⟨before, env, rest ++ [x], vs, by rw [h1]; simp, h2⟩

/-- Votes come from messages. -/
structure Votes (hash : Str → Str) (h : List (Env × Op)) (o : List Claim) (st : State) : Prop where
  sent : ∀ k a, KV.get st.atts k = some a → ∀ v ∈ a.votes, Sent hash h k v
  nodup : ∀ k a, KV.get st.atts k = some a → a.votes.Nodup
  claim : ∀ k a, KV.get st.atts k = some a → a.claim.basic = true ∧ ∃ env, (env, Op.claim a.claim) ∈ h
  just : ∀ c ∈ o, Justified hash h c
  was : ∀ c ∈ o, c.basic = true ∧ ∃ env, (env, Op.claim c) ∈ h

theorem run_votes (lo lh : Nat → Nat) (hist : List (Env × Op)) (hh : After voteCheckFrom hist) :
    Votes hash hist (run hash (init lo lh) hist).2 (run hash (init lo lh) hist).1 := by
  revert hh
  refine run_ind (P := fun h o st => After voteCheckFrom h → Votes hash h o st) ?_ ?_ ?_ hist
  · intro _
    exact ⟨fun k a h => (by cases h), fun k a h => (by cases h), fun k a h => (by cases h), fun c h => (by cases h),
      fun c h => (by cases h)⟩
  · intro h o st x ih hh
    have i := ih (fun y hy => hh y (List.mem_append_left _ hy))
    exact ⟨fun k a hg v hv => (i.sent k a hg v hv).mono fun y hy => List.mem_append_left _ hy, i.nodup,
      fun k a hg => ⟨(i.claim k a hg).1, (i.claim k a hg).2.imp fun _ => List.mem_append_left _⟩,
      fun c hc => (i.just c hc).snoc x, fun c hc => ⟨(i.was c hc).1, (i.was c hc).2.imp fun _ => List.mem_append_left _⟩⟩
  · intro h x o st o' st' w ih hm hh
    have i := ih hh
    have hx : x ∈ h ++ [x] := by simp
    cases hm with
    | vote c val _ hop hb hv hm hvote =>
      obtain ⟨att, ha, hobs, _, hnv, rfl⟩ := vote_some hvote
      have hxc : (x.1, Op.claim c) ∈ h ++ [x] := by rw [← hop]; exact hx
      have base : (∀ v ∈ att.votes, Sent hash (h ++ [x]) (keyOf hash c) v) ∧ att.votes.Nodup ∧
          att.claim.basic = true ∧ ∃ env, (env, Op.claim att.claim) ∈ h ++ [x] := by
        cases hg : KV.get st.atts (keyOf hash c) with
        | none =>
          rw [hg] at ha
          rw [← ha]
          exact ⟨fun v hv => (by cases hv), List.nodup_nil, hb, x.1, hxc⟩
        | some a =>
          rw [hg] at ha
          have ha : a = att := ha
          rw [← ha]
          exact ⟨i.sent _ _ hg, i.nodup _ _ hg, i.claim _ _ hg⟩
      rw [List.append_nil]
      refine ⟨?_, ?_, ?_, i.just, i.was⟩
      · intro k a hg v hv'
        rw [KV.get_set] at hg
        split at hg
        · rename_i hk
          cases hg
          rw [hk]
          rcases List.mem_append.1 hv' with hv' | hv'
          · exact base.1 v hv'
          · rw [List.mem_singleton] at hv'
            exact ⟨x.1, c, hxc, hb, rfl, hv' ▸ hv, hv' ▸ hm⟩
        · exact i.sent k a hg v hv'
      · intro k a hg
        rw [KV.get_set] at hg
        split at hg
        · cases hg
          show (att.votes ++ [val]).Nodup
          rw [List.nodup_append]
          refine ⟨base.2.1, by simp, ?_⟩
          intro a ha b hb hab
          rw [List.mem_singleton] at hb
          exact hnv (hh x hx) (hb ▸ hab ▸ ha)
        · exact i.nodup k a hg
      · intro k a hg
        rw [KV.get_set] at hg
        split at hg
        · cases hg
          exact base.2.2
        · exact i.claim k a hg
    | clean hid hop hd =>
      rw [List.append_nil]
      have hsub : ∀ k a, KV.get (cleaned st hid).atts k = some a → KV.get st.atts k = some a := by
        intro k a hg
        exact KV.get_of_mem w.distinct (List.mem_filter.1 (KV.mem_of_get hg)).1
      exact ⟨fun k a hg => i.sent k a (hsub k a hg), fun k a hg => i.nodup k a (hsub k a hg),
        fun k a hg => i.claim k a (hsub k a hg), i.just, i.was⟩
    | observe hid att hop hg hh' hu hr =>
      have hset : ∀ k a, KV.get (observe hash x.1 st att).atts k = some a →
          ∃ a', KV.get st.atts k = some a' ∧ a'.votes = a.votes ∧ a'.claim = a.claim := by
        intro k a hg'
        have hg' : KV.get (KV.set st.atts (keyOf hash att.claim) { att with observed := true }) k = some a := hg'
        rw [KV.get_set] at hg'
        split at hg'
        · rename_i hk
          cases hg'
          exact ⟨att, hk ▸ hg, rfl, rfl⟩
        · exact ⟨a, hg', rfl, rfl⟩
      refine ⟨?_, ?_, ?_, ?_, ?_⟩
      · intro k a hg'
        obtain ⟨a', h1, h2, _⟩ := hset k a hg'
        rw [← h2]
        exact i.sent k a' h1
      · intro k a hg'
        obtain ⟨a', h1, h2, _⟩ := hset k a hg'
        rw [← h2]
        exact i.nodup k a' h1
      · intro k a hg'
        obtain ⟨a', h1, _, h2⟩ := hset k a hg'
        rw [← h2]
        exact i.claim k a' h1
      · intro c hc
        rcases List.mem_append.1 hc with hc | hc
        · exact i.just c hc
        · rw [List.mem_singleton] at hc
          subst hc
          obtain ⟨hne, hreq⟩ := reaches_iff.1 hr
          refine ⟨h, x.1, [], att.votes, ?_, i.nodup _ _ hg, hne, ?_, ?_⟩
          · rw [hh', ← hop]
          · intro v hv
            obtain ⟨env, c, h1, h2⟩ := i.sent _ _ hg v hv
            refine ⟨env, c, ?_, h2⟩
            rcases List.mem_append.1 h1 with h1 | h1
            · exact h1
            · rw [List.mem_singleton] at h1
              rw [← h1] at hop
              cases hop
          · rw [hh']
            rw [Nat.zero_add] at hreq
            exact hreq
      · intro c hc
        rcases List.mem_append.1 hc with hc | hc
        · exact i.was c hc
        · rw [List.mem_singleton] at hc
          subst hc
          exact i.claim _ _ hg
    | prune hid att hop hg hh' ho hl =>
      rw [List.append_nil]
      have hsub : ∀ k a, KV.get (pruneOne hash x.1 st att).atts k = some a → KV.get st.atts k = some a := by
        intro k a hg'
        have hg' : KV.get (KV.del st.atts (keyOf hash att.claim)) k = some a := hg'
        rw [KV.get_del] at hg'
        split at hg'
        · cases hg'
        · exact hg'
      exact ⟨fun k a hg => i.sent k a (hsub k a hg), fun k a hg => i.nodup k a (hsub k a hg),
        fun k a hg => i.claim k a (hsub k a hg), i.just, i.was⟩
    | contract hid start hop =>
      rw [List.append_nil]
      exact ⟨i.sent, i.nodup, i.claim, i.just, i.was⟩
    | blockTime hid t hop =>
      rw [List.append_nil]
      exact ⟨i.sent, i.nodup, i.claim, i.just, i.was⟩

/-! ## Observed nonces -/

/-- No operation that leads to a cleaning. -/
def NoReset (hist : List (Env × Op)) : Prop :=
  ∀ x ∈ hist, (∀ hid start, x.2 ≠ .newContract hid start) ∧ (∀ hid t, x.2 ≠ .blockTime hid t)

/-- All operations take place at or after the given height. -/
def From (n : Nat) (hist : List (Env × Op)) : Prop := ∀ x ∈ hist, n ≤ x.1.height

/-- Marks and observed attestations are the claims that took effect. -/
structure Marks (hash : Str → Str) (o : List Claim) (st : State) : Prop where
  due : ∀ hid, st.due hid = false
  mark : ∀ c ∈ o, (c.hid, c.nonce) ∈ st.marks
  seen : ∀ c ∈ o, ∀ a, KV.get st.atts (keyOf hash c) = some a → a.observed = true
  nodup : (o.map (keyOf hash)).Nodup
  applied : ∀ hid n, (hid, n) ∈ st.marks → ∃ c ∈ o, c.hid = hid ∧ c.nonce = n
  observed : ∀ k a, KV.get st.atts k = some a → a.observed = true → ∃ c ∈ o, keyOf hash c = k

theorem storeMark_eq {env : Env} (h : marksFrom ≤ env.height) (m : List (Nat × Nat)) (hid n : Nat) :
    storeMark env m hid n = (hid, n) :: m := by
  unfold storeMark
  rw [if_neg (by omega)]

theorem marks_micro {x : Env × Op} {o o' : List Claim} {st st' : State} (i : Marks hash o st) (hm : Micro hash x st o' st')
    (hgt : marksFrom ≤ x.1.height) (hr : (∀ hid start, x.2 ≠ .newContract hid start) ∧ (∀ hid t, x.2 ≠ .blockTime hid t)) :
    Marks hash (o ++ o') st' := by
  cases hm with
  | vote c val _ hop hb hv hm hvote =>
    obtain ⟨att, ha, hobs, hmk, hnv, rfl⟩ := vote_some hvote
    rw [List.append_nil]
    have hnm : (c.hid, c.nonce) ∉ st.marks := by
      intro hc
      simp [marked, hgt, hc] at hmk
    refine ⟨i.due, i.mark, ?_, i.nodup, i.applied, ?_⟩
    · intro c' hc' a hg
      rw [KV.get_set] at hg
      split at hg
      · rename_i hk
        have h1 : c'.hid = c.hid := congrArg (·.1) hk
        have h2 : c'.nonce = c.nonce := congrArg (·.2.1) hk
        have := i.mark c' hc'
        rw [h1, h2] at this
        exact absurd this hnm
      · exact i.seen c' hc' a hg
    · intro k a hg ho
      rw [KV.get_set] at hg
      split at hg
      · cases hg
        rw [show att.observed = false from hobs] at ho
        cases ho
      · exact i.observed k a hg ho
  | clean hid hop hd =>
    rw [i.due hid] at hd
    cases hd
  | observe hid att hop hg hh' hu hreach =>
    have hmarks : (observe hash x.1 st att).marks = (att.claim.hid, att.claim.nonce) :: st.marks := storeMark_eq hgt _ _ _
    have hnew : ∀ c ∈ o, keyOf hash c ≠ keyOf hash att.claim := by
      intro c hc hk
      have := i.seen c hc att (hk ▸ hg)
      rw [hu] at this
      cases this
    have hatts : ∀ k, KV.get (observe hash x.1 st att).atts k =
        if k = keyOf hash att.claim then some { att with observed := true } else KV.get st.atts k := fun k => KV.get_set _ _ _ _
    refine ⟨i.due, ?_, ?_, ?_, ?_, ?_⟩
    · intro c hc
      rw [hmarks]
      rcases List.mem_append.1 hc with hc | hc
      · exact List.mem_cons_of_mem _ (i.mark c hc)
      · rw [List.mem_singleton] at hc
        rw [hc]
        exact List.mem_cons_self
    · intro c hc a hg'
      rw [hatts] at hg'
      split at hg'
      · cases hg'
        rfl
      · rename_i hk
        rcases List.mem_append.1 hc with hc | hc
        · exact i.seen c hc a hg'
        · rw [List.mem_singleton] at hc
          rw [hc] at hk
          exact absurd rfl hk
    · rw [List.map_append, List.nodup_append]
      refine ⟨i.nodup, by simp, ?_⟩
      intro a ha b hb hab
      obtain ⟨c, hc, rfl⟩ := List.mem_map.1 ha
      simp only [List.map_cons, List.map_nil, List.mem_singleton] at hb
      exact hnew c hc (hab.trans hb)
    · intro hid' n hm
      rw [hmarks] at hm
      rcases List.mem_cons.1 hm with hm | hm
      · cases hm
        exact ⟨att.claim, by simp, rfl, rfl⟩
      · obtain ⟨c, hc, h1⟩ := i.applied hid' n hm
        exact ⟨c, List.mem_append_left _ hc, h1⟩
    · intro k a hg' ho
      rw [hatts] at hg'
      split at hg'
      · rename_i hk
        exact ⟨att.claim, by simp, hk.symm⟩
      · obtain ⟨c, hc, h1⟩ := i.observed k a hg' ho
        exact ⟨c, List.mem_append_left _ hc, h1⟩
  | prune hid att hop hg hh' ho hl =>
    rw [List.append_nil]
    have hmarks : (pruneOne hash x.1 st att).marks = (att.claim.hid, att.claim.nonce) :: st.marks := storeMark_eq hgt _ _ _
    have hsub : ∀ k a, KV.get (pruneOne hash x.1 st att).atts k = some a → KV.get st.atts k = some a := by
      intro k a hg'
      have hg' : KV.get (KV.del st.atts (keyOf hash att.claim)) k = some a := hg'
      rw [KV.get_del] at hg'
      split at hg'
      · cases hg'
      · exact hg'
    refine ⟨i.due, ?_, fun c hc a hg' => i.seen c hc a (hsub _ _ hg'), i.nodup, ?_, fun k a hg' => i.observed k a (hsub _ _ hg')⟩
    · intro c hc
      rw [hmarks]
      exact List.mem_cons_of_mem _ (i.mark c hc)
    · intro hid' n hm
      rw [hmarks] at hm
      rcases List.mem_cons.1 hm with hm | hm
      · cases hm
        obtain ⟨c, hc, hk⟩ := i.observed _ _ hg ho
        exact ⟨c, hc, congrArg (·.1) hk, congrArg (·.2.1) hk⟩
      · exact i.applied hid' n hm
  | contract hid start hop => exact absurd hop (hr.1 hid start)
  | blockTime hid t hop => exact absurd hop (hr.2 hid t)

theorem run_marks (lo lh : Nat → Nat) (hist : List (Env × Op)) (hr : NoReset hist) (hh : From marksFrom hist) :
    Marks hash (run hash (init lo lh) hist).2 (run hash (init lo lh) hist).1 := by
  revert hr hh
  refine run_ind (P := fun h o st => NoReset h → From marksFrom h → Marks hash o st) ?_ ?_ ?_ hist
  · intro _ _
    exact ⟨fun _ => rfl, fun c h => (by cases h), fun c h => (by cases h), List.nodup_nil, fun _ _ h => (by cases h),
      fun _ _ h => (by cases h)⟩
  · intro h o st x ih hr hh
    exact ih (fun y hy => hr y (List.mem_append_left _ hy)) (fun y hy => hh y (List.mem_append_left _ hy))
  · intro h x o st o' st' w ih hm hr hh
    have i := ih hr hh
    have hx : x ∈ h ++ [x] := by simp
    exact marks_micro i hm (hh x hx) (hr x hx)

/-! ## Last observed and skipped nonces -/

/-- No bridge contract is replaced. -/
def NoContract (hist : List (Env × Op)) : Prop := ∀ x ∈ hist, ∀ hid start, x.2 ≠ .newContract hid start

theorem get_skipAll_aux (hid last height : Nat) (k : Nat × Nat) (ns : List Nat) : ∀ s : List ((Nat × Nat) × (Nat × Nat)),
    KV.get (ns.foldl (fun s n => KV.set s (hid, n) (last, height)) s) k =
      if k.1 = hid ∧ k.2 ∈ ns then some (last, height) else KV.get s k := by
  induction ns with
  | nil => intro s; simp
  | cons n ns ih =>
    intro s
    rw [List.foldl_cons, ih, KV.get_set]
    obtain ⟨k1, k2⟩ := k
    by_cases h1 : k1 = hid ∧ k2 ∈ ns
    · simp [h1]
    · by_cases h2 : k1 = hid ∧ k2 = n
      · simp [h2]
      · have h3 : ¬ (k1, k2) = (hid, n) := by simpa using h2
        have h4 : ¬ (k1 = hid ∧ k2 ∈ n :: ns) := by
          simp only [List.mem_cons]
          grind
        rw [if_neg h1, if_neg h3, if_neg h4]

theorem get_skipAll (s : List ((Nat × Nat) × (Nat × Nat))) (hid last nonce height : Nat) (k : Nat × Nat) :
    KV.get (skipAll s hid last nonce height) k =
      if k.1 = hid ∧ last < k.2 ∧ k.2 < nonce then some (last, height) else KV.get s k := by
  unfold skipAll
  rw [get_skipAll_aux]
  have : k.2 ∈ List.range' (last + 1) (nonce - (last + 1)) ↔ last < k.2 ∧ k.2 < nonce := by
    rw [List.mem_range'_1]
    omega
  simp only [this]

/-- Last observed and skipped nonces follow the claims that took effect. -/
structure Obs (lo : Nat → Nat) (o : List Claim) (st : State) : Prop where
  ge : ∀ hid, lo hid ≤ st.lastObs hid
  ub : ∀ c ∈ o, c.nonce ≤ st.lastObs c.hid
  att : ∀ hid, st.lastObs hid = lo hid ∨ ∃ c ∈ o, c.hid = hid ∧ c.nonce = st.lastObs hid
  skip : ∀ hid n, (KV.get st.skipped (hid, n)).isSome = true ↔
    lo hid < n ∧ n < st.lastObs hid ∧ ∀ c ∈ o, ¬ (c.hid = hid ∧ c.nonce = n)

theorem Obs.congr {lo : Nat → Nat} {o : List Claim} {st st' : State} (i : Obs lo o st) (h1 : st'.lastObs = st.lastObs)
    (h2 : st'.skipped = st.skipped) : Obs lo o st' := by
  constructor
  · rw [h1]; exact i.ge
  · rw [h1]; exact i.ub
  · rw [h1]; exact i.att
  · rw [h1, h2]; exact i.skip

theorem run_obs (lo lh : Nat → Nat) (hist : List (Env × Op)) (hr : NoContract hist) :
    Obs lo (run hash (init lo lh) hist).2 (run hash (init lo lh) hist).1 := by
  revert hr
  refine run_ind (P := fun h o st => NoContract h → Obs lo o st) ?_ ?_ ?_ hist
  · intro _
    refine ⟨fun _ => Nat.le_refl _, fun c h => (by cases h), fun _ => Or.inl rfl, ?_⟩
    intro hid n
    constructor
    · intro h; cases h
    · rintro ⟨h1, h2, _⟩
      have h2 : n < lo hid := h2
      omega
  · intro h o st x ih hr
    exact ih (fun y hy => hr y (List.mem_append_left _ hy))
  · intro h x o st o' st' w ih hm hr
    have i := ih hr
    have hx : x ∈ h ++ [x] := by simp
    cases hm with
    | vote c val _ hop hb hv hm hvote =>
      obtain ⟨att, ha, hobs, hmk, hnv, rfl⟩ := vote_some hvote
      rw [List.append_nil]
      exact i.congr rfl rfl
    | clean hid hop hd => rw [List.append_nil]; exact i.congr rfl rfl
    | observe hid att hop hg hh' hu hreach =>
      have hlo : ∀ h', (observe hash x.1 st att).lastObs h' =
          if h' = att.claim.hid ∧ st.lastObs h' < att.claim.nonce then att.claim.nonce else st.lastObs h' := by
        intro h'
        show (if st.lastObs att.claim.hid < att.claim.nonce then upd st.lastObs att.claim.hid att.claim.nonce
          else st.lastObs) h' = _
        by_cases hc : h' = att.claim.hid
        · subst hc
          split
          · rename_i hlt
            simp [upd, hlt]
          · rename_i hlt
            simp [hlt]
        · split
          · simp [upd, hc]
          · simp [hc]
      have hsk : ∀ k, KV.get (observe hash x.1 st att).skipped k =
          if k = (att.claim.hid, att.claim.nonce) then none
          else if k.1 = att.claim.hid ∧ st.lastObs att.claim.hid < k.2 ∧ k.2 < att.claim.nonce then
            some (st.lastObs att.claim.hid, att.claim.height)
          else KV.get st.skipped k := by
        intro k
        show KV.get (KV.del (skipAll _ _ _ _ _) _) k = _
        rw [KV.get_del, get_skipAll]
      generalize observe hash x.1 st att = st2 at hlo hsk
      refine ⟨?_, ?_, ?_, ?_⟩
      · intro h'
        rw [hlo]
        have := i.ge h'
        split <;> omega
      · intro c hc
        rw [hlo]
        rcases List.mem_append.1 hc with hc | hc
        · have := i.ub c hc
          split <;> omega
        · rw [List.mem_singleton] at hc
          rw [hc]
          split
          · omega
          · rename_i hn
            simp only [true_and] at hn
            omega
      · intro h'
        rw [hlo]
        split
        · rename_i hc
          exact Or.inr ⟨att.claim, by simp, hc.1.symm, rfl⟩
        · rcases i.att h' with h1 | ⟨c, hc, h1⟩
          · exact Or.inl h1
          · exact Or.inr ⟨c, List.mem_append_left _ hc, h1⟩
      · intro h' n
        rw [hsk, hlo]
        have hge := i.ge h'
        have hsk' := i.skip h' n
        have hmem : (∀ c ∈ o ++ [att.claim], ¬ (c.hid = h' ∧ c.nonce = n)) ↔
            (∀ c ∈ o, ¬ (c.hid = h' ∧ c.nonce = n)) ∧ ¬ (att.claim.hid = h' ∧ att.claim.nonce = n) := by
          simp only [List.mem_append, List.mem_singleton]
          constructor
          · intro hall
            exact ⟨fun c hc => hall c (Or.inl hc), hall _ (Or.inr rfl)⟩
          · rintro ⟨h1, h2⟩ c (hc | rfl)
            · exact h1 c hc
            · exact h2
        rw [hmem]
        by_cases hk : (h', n) = (att.claim.hid, att.claim.nonce)
        · rw [if_pos hk]
          obtain ⟨e1, e2⟩ := Prod.mk.inj hk
          constructor
          · intro hf; cases hf
          · rintro ⟨_, _, _, hf⟩
            exact absurd ⟨e1.symm, e2.symm⟩ hf
        · rw [if_neg hk]
          have hk2 : ¬ (att.claim.hid = h' ∧ att.claim.nonce = n) := by
            rintro ⟨e1, e2⟩
            exact hk (by rw [e1, e2])
          by_cases hnew : h' = att.claim.hid ∧ st.lastObs att.claim.hid < n ∧ n < att.claim.nonce
          · rw [if_pos hnew]
            obtain ⟨e1, h2, h3⟩ := hnew
            subst e1
            rw [if_pos ⟨rfl, by omega⟩]
            refine ⟨fun _ => ⟨by omega, h3, ?_, hk2⟩, fun _ => rfl⟩
            intro c hc hcn
            have := i.ub c hc
            rw [hcn.1, hcn.2] at this
            omega
          · rw [if_neg hnew, hsk']
            by_cases hup : h' = att.claim.hid ∧ st.lastObs h' < att.claim.nonce
            · rw [if_pos hup]
              obtain ⟨e1, hup⟩ := hup
              subst e1
              have hne : n ≠ att.claim.nonce := fun e => hk2 ⟨rfl, e.symm⟩
              have hlt : ¬ (st.lastObs att.claim.hid < n ∧ n < att.claim.nonce) := fun e => hnew ⟨rfl, e⟩
              constructor
              · rintro ⟨h1, h2, h3⟩
                exact ⟨h1, by omega, h3, hk2⟩
              · rintro ⟨h1, h2, h3, _⟩
                refine ⟨h1, ?_, h3⟩
                have hle : n ≤ st.lastObs att.claim.hid := by omega
                rcases Nat.lt_or_ge n (st.lastObs att.claim.hid) with h | h
                · exact h
                · exfalso
                  have he : n = st.lastObs att.claim.hid := by omega
                  rcases i.att att.claim.hid with h4 | ⟨c, hc, h4, h5⟩
                  · omega
                  · exact h3 c hc ⟨h4, by omega⟩
            · rw [if_neg hup]
              constructor
              · rintro ⟨h1, h2, h3⟩; exact ⟨h1, h2, h3, hk2⟩
              · rintro ⟨h1, h2, h3, _⟩; exact ⟨h1, h2, h3⟩
    | prune hid att hop hg hh' ho hl => rw [List.append_nil]; exact i.congr rfl rfl
    | contract hid start hop => exact absurd hop (hr x hx hid start)
    | blockTime hid t hop => rw [List.append_nil]; exact i.congr rfl rfl

end Hyperion.Attest
