import Verif.Rpc.PollFlow

/-!
# Polling filters: every move keeps the course of the events
-/

namespace Poll

theorem Course.new {s s' : State} {seen : Nat → List Ev} (hs : Course s seen)
    {k : Kind} {c : Crit} {o : Bool} (h1 : s'.fil = setAt s.fil s.next (newFil k c o))
    (h2 : s'.log = s.log) (h3 : s'.inflight = s.inflight)
    (h4 : ∀ c p', s'.pub c = some p' → s.pub c = some p' ∨ (s.pub c = none ∧ p'.holding = none ∧
      s.topics p'.kind = false ∧ p'.kind = k))
    (h5 : ∀ c p, s.pub c = some p → s'.pub c = some p)
    (h6 : ∀ k', s'.topics k' = false → s.topics k' = false ∧ (∀ c p', s'.pub c = some p' → s.pub c = none → p'.kind ≠ k'))
    (h7 : ∀ c c' p p', s'.pub c = some p → s'.pub c' = some p' → s.pub c = none → s.pub c' = none → c = c') :
    Course s' (fun j => if j = s.next then [] else seen j) := by
  have hf := hs.flow
  have hr : ∀ e, Reported s' e ↔ Reported s e := by
    intro e
    unfold Reported
    rw [h2]
  have hat : ∀ x e, At s' x e → At s x e := by
    intro x e ha
    cases x with
    | none =>
      obtain ⟨c, hc⟩ := ha
      rw [h3] at hc
      exact ⟨c, hc⟩
    | some c =>
      obtain ⟨p', hp, he⟩ := ha
      rcases h4 c p' hp with h | ⟨_, h, _⟩
      · exact ⟨p', h, he⟩
      · rw [h] at he
        cases he
  have hfil : ∀ i f, s'.fil i = some f → (i = s.next ∧ f = newFil k c o) ∨ (i ≠ s.next ∧ s.fil i = some f) := by
    intro i f hi
    rw [h1] at hi
    exact setAt_some hi
  have hold : ∀ i : Nat, i ≠ s.next → (if i = s.next then [] else seen i) = seen i := fun i h => if_neg h
  have hnew : (if s.next = s.next then [] else seen s.next) = [] := if_pos rfl
  constructor
  · refine ⟨?_, ?_, ?_, ?_, ?_, ?_, ?_, ?_, ?_, ?_⟩
    · rw [h2]
      exact hf.nums
    · intro i f hi
      rcases hfil i f hi with ⟨rfl, rfl⟩ | ⟨hn, hi'⟩
      · show Told _ (if s.next = s.next then [] else seen s.next) _
        rw [hnew]
        exact .nil
      · show Told _ (if i = s.next then [] else seen i) _
        rw [hold i hn]
        exact hf.told i f hi'
    · intro i f hi e he
      rcases hfil i f hi with ⟨rfl, rfl⟩ | ⟨hn, hi'⟩
      · have he' : e ∈ (if s.next = s.next then [] else seen s.next) ∨ none = some e := he
        rw [hnew] at he'
        rcases he' with h | h
        · exact absurd h List.not_mem_nil
        · cases h
      · have he' : e ∈ (if i = s.next then [] else seen i) ∨ f.holding = some e := he
        rw [hold i hn] at he'
        rw [hr]
        exact hf.src i f hi' e he'
    · intro i f hi
      rcases hfil i f hi with ⟨rfl, rfl⟩ | ⟨hn, hi'⟩
      · show List.Pairwise _ (if s.next = s.next then [] else seen s.next)
        rw [hnew]
        exact .nil
      · show List.Pairwise _ (if i = s.next then [] else seen i)
        rw [hold i hn]
        exact hf.once i f hi'
    · intro i f hi e he d hd
      rcases hfil i f hi with ⟨rfl, rfl⟩ | ⟨hn, hi'⟩
      · cases he
      · have hd' : d ∈ (if i = s.next then [] else seen i) := hd
        rw [hold i hn] at hd'
        exact hf.held i f hi' e he d hd'
    · exact fun x e ha => (hr e).2 (hf.rep x e (hat x e ha))
    · exact fun x y e d ha hb => hf.one x y e d (hat x e ha) (hat y d hb)
    · intro i f hi x e ha d hd
      rcases hfil i f hi with ⟨rfl, rfl⟩ | ⟨hn, hi'⟩
      · have hd' : d ∈ (if s.next = s.next then [] else seen s.next) ∨ none = some d := hd
        rw [hnew] at hd'
        rcases hd' with h | h
        · exact absurd h List.not_mem_nil
        · cases h
      · have hd' : d ∈ (if i = s.next then [] else seen i) ∨ f.holding = some d := hd
        rw [hold i hn] at hd'
        exact hf.apart i f hi' x e (hat x e ha) d hd'
    · intro c p e hp he
      rcases h4 c p hp with h | ⟨_, h, _⟩
      · exact hf.pkind c p e h he
      · rw [h] at he
        cases he
    · intro c e he
      rw [h3] at he
      obtain ⟨⟨p, hp, hk⟩, hn⟩ := hf.ikind c e he
      exact ⟨⟨p, h5 c p hp, hk⟩, by rw [h2]; exact hn⟩
  · intro k' hc
    have hl := hs.line k' (fun c p hp hk => hc c p (h5 c p hp) hk)
    refine ⟨?_, ?_, ?_, ?_, ?_⟩
    · intro c p c2 p2 hp hk hp2 hk2
      rcases h4 c p hp with h | ⟨hn, _, ht, _⟩
      · rcases h4 c2 p2 hp2 with h' | ⟨hn', _, ht', _⟩
        · exact hl.uniq c p c2 p2 h hk h' hk2
        · rw [hk2] at ht'
          exact absurd hk (hl.topic ht' c p h)
      · rcases h4 c2 p2 hp2 with h' | ⟨hn', _, ht', _⟩
        · rw [hk] at ht
          exact absurd hk2 (hl.topic ht c2 p2 h')
        · exact h7 c c2 p p2 hp hp2 hn hn'
    · intro ht c p hp
      obtain ⟨h8, h9⟩ := h6 k' ht
      rcases h4 c p hp with h | ⟨hn, _⟩
      · exact hl.topic h8 c p h
      · exact h9 c p hp hn
    · intro i f hi hk
      rcases hfil i f hi with ⟨rfl, rfl⟩ | ⟨hn, hi'⟩
      · show List.Pairwise _ (if s.next = s.next then [] else seen s.next)
        rw [hnew]
        exact .nil
      · show List.Pairwise _ (if i = s.next then [] else seen i)
        rw [hold i hn]
        exact hl.sorted i f hi' hk
    · intro i f hi hk e he d hd
      rcases hfil i f hi with ⟨rfl, rfl⟩ | ⟨hn, hi'⟩
      · cases he
      · have hd' : d ∈ (if i = s.next then [] else seen i) := hd
        rw [hold i hn] at hd'
        exact hl.held i f hi' hk e he d hd'
    · intro i f hi hk c p e hp hpk he d hd
      rcases hfil i f hi with ⟨rfl, rfl⟩ | ⟨hn, hi'⟩
      · have hd' : d ∈ (if s.next = s.next then [] else seen s.next) ∨ none = some d := hd
        rw [hnew] at hd'
        rcases hd' with h | h
        · exact absurd h List.not_mem_nil
        · cases h
      · have hd' : d ∈ (if i = s.next then [] else seen i) ∨ f.holding = some d := hd
        rw [hold i hn] at hd'
        rcases h4 c p hp with h | ⟨_, h, _⟩
        · exact hl.pub i f hi' hk c p e h hpk he d hd'
        · rw [h] at he
          cases he

/-- The node reports an event. -/
theorem Course.report {s s' : State} {seen : Nat → List Ev} (hs : Course s seen) {k : Kind} {b : Body}
    (hin : s.inflight = none) (h1 : s'.fil = s.fil) (h2 : s'.log = s.log ++ [⟨s.log.length, k, b⟩])
    (h3 : s'.inflight = none ∨ ∃ c p, s'.inflight = some (c, ⟨s.log.length, k, b⟩) ∧ s.pub c = some p ∧ p.kind = k)
    (h4 : s'.pub = s.pub) (h5 : s'.topics = s.topics) : Course s' seen := by
  have hf := hs.flow
  have hr : ∀ e, Reported s e → Reported s' e := by
    intro e he
    have := reported_lt he
    unfold Reported at he ⊢
    rw [h2, List.getElem?_append_left this]
    exact he
  have hat : ∀ x e, At s' x e → At s x e ∨ (x = none ∧ e = ⟨s.log.length, k, b⟩) := by
    intro x e ha
    cases x with
    | none =>
      obtain ⟨c, hc⟩ := ha
      rcases h3 with h3 | ⟨c', p, h3, _⟩
      · rw [h3] at hc
        cases hc
      · rw [h3] at hc
        cases hc
        exact Or.inr ⟨rfl, rfl⟩
    | some c =>
      obtain ⟨p', hp, he⟩ := ha
      rw [h4] at hp
      exact Or.inl ⟨p', hp, he⟩
  have hnone : ∀ e, ¬ At s none e := by
    rintro e ⟨c, hc⟩
    rw [hin] at hc
    cases hc
  constructor
  · refine ⟨?_, ?_, ?_, ?_, ?_, ?_, ?_, ?_, ?_, ?_⟩
    · intro n e he
      rw [h2] at he
      rcases Nat.lt_trichotomy n s.log.length with h | h | h
      · rw [List.getElem?_append_left h] at he
        exact hf.nums n e he
      · subst h
        rw [List.getElem?_concat_length] at he
        cases he
        rfl
      · rw [List.getElem?_eq_none (by rw [List.length_append]; show s.log.length + 1 ≤ n; omega)] at he
        cases he
    · intro i f hi
      rw [h1] at hi
      exact hf.told i f hi
    · intro i f hi e he
      rw [h1] at hi
      obtain ⟨h6, h7⟩ := hf.src i f hi e he
      exact ⟨hr e h6, h7⟩
    · intro i f hi
      rw [h1] at hi
      exact hf.once i f hi
    · intro i f hi
      rw [h1] at hi
      exact hf.held i f hi
    · intro x e ha
      rcases hat x e ha with h | ⟨_, rfl⟩
      · exact hr e (hf.rep x e h)
      · unfold Reported
        rw [h2]
        exact List.getElem?_concat_length
    · intro x y e d ha hb hn
      rcases hat x e ha with h | ⟨rfl, rfl⟩
      · rcases hat y d hb with h' | ⟨rfl, rfl⟩
        · exact hf.one x y e d h h' hn
        · have := reported_lt (hf.rep x e h)
          have hn' : e.no = s.log.length := hn
          omega
      · rcases hat y d hb with h' | ⟨rfl, rfl⟩
        · have := reported_lt (hf.rep y d h')
          have hn' : s.log.length = d.no := hn
          omega
        · rfl
    · intro i f hi x e ha d hd
      rw [h1] at hi
      rcases hat x e ha with h | ⟨rfl, rfl⟩
      · exact hf.apart i f hi x e h d hd
      · have := reported_lt (hf.src i f hi d hd).1
        show d.no ≠ s.log.length
        omega
    · intro c p e hp
      rw [h4] at hp
      exact hf.pkind c p e hp
    · intro c e he
      rcases h3 with h3 | ⟨c', p, h3, hp, hk⟩
      · rw [h3] at he
        cases he
      · rw [h3] at he
        cases he
        refine ⟨⟨p, by rw [h4]; exact hp, hk⟩, ?_⟩
        rw [h2, List.length_append]
        rfl
  · intro k' hc
    have hl := hs.line k' (fun c p hp hk => hc c p (by rw [h4]; exact hp) hk)
    refine ⟨?_, ?_, ?_, ?_, ?_⟩
    · rw [h4]
      exact hl.uniq
    · rw [h4, h5]
      exact hl.topic
    · rw [h1]
      exact hl.sorted
    · rw [h1]
      exact hl.held
    · rw [h1, h4]
      exact hl.pub

/-- The reading loop hands its event to a publishing goroutine. -/
theorem Course.sent {s : State} {seen : Nat → List Ev} (hs : Course s seen) {c : Nat} {e : Ev} {p : Pub}
    (hi : s.inflight = some (c, e)) (hp : s.pub c = some p) :
    Course { s with pub := setAt s.pub c { p with holding := some e }, inflight := none } seen := by
  have hf := hs.flow
  have hein : At s none e := ⟨c, hi⟩
  obtain ⟨⟨q, hq, hqk⟩, hlen⟩ := hf.ikind c e hi
  rw [hp] at hq
  cases hq
  have hat : ∀ x d, At { s with pub := setAt s.pub c { p with holding := some e }, inflight := none } x d →
      (x = some c ∧ d = e) ∨ (x ≠ some c ∧ x ≠ none ∧ At s x d) := by
    intro x d ha
    cases x with
    | none =>
      obtain ⟨_, h⟩ := ha
      cases h
    | some c' =>
      obtain ⟨p', hp', hd⟩ := ha
      rcases setAt_some hp' with ⟨rfl, rfl⟩ | ⟨hne, hp2⟩
      · exact Or.inl ⟨rfl, (Option.some.inj hd).symm⟩
      · exact Or.inr ⟨fun h => hne (Option.some.inj h), (fun h => nomatch h), p', hp2, hd⟩
  constructor
  · refine ⟨hf.nums, hf.told, hf.src, hf.once, hf.held, ?_, ?_, ?_, ?_, (fun _ _ h => nomatch h)⟩
    · intro x d ha
      rcases hat x d ha with ⟨_, rfl⟩ | ⟨_, _, h⟩
      · exact hf.rep none d hein
      · exact hf.rep x d h
    · intro x y d d' ha hb hn
      rcases hat x d ha with ⟨rfl, rfl⟩ | ⟨_, h2, h⟩
      · rcases hat y d' hb with ⟨rfl, rfl⟩ | ⟨_, h2', h'⟩
        · rfl
        · exact absurd (hf.one none y _ _ hein h' hn).symm h2'
      · rcases hat y d' hb with ⟨rfl, rfl⟩ | ⟨_, h2', h'⟩
        · exact absurd (hf.one x none _ _ h hein hn) h2
        · exact hf.one x y d d' h h' hn
    · intro i f hfi x d ha
      rcases hat x d ha with ⟨_, rfl⟩ | ⟨_, _, h⟩
      · exact hf.apart i f hfi none d hein
      · exact hf.apart i f hfi x d h
    · intro c' p' d hp' hd
      rcases setAt_some hp' with ⟨rfl, rfl⟩ | ⟨hne, hp2⟩
      · have hd' : some e = some d := hd
        cases hd'
        exact hqk.symm
      · exact hf.pkind c' p' d hp2 hd
  · intro k' hc
    have hc' : Calm s k' := by
      intro c' p' hp' hk
      by_cases hcc : c' = c
      · subst hcc
        rw [hp] at hp'
        cases hp'
        exact hc c' { p with holding := some e } (setAt_same _ _ _) hk
      · exact hc c' p' ((setAt_ne hcc).trans hp') hk
    have hl := hs.line k' hc'
    have hpub : ∀ c' p', setAt s.pub c { p with holding := some e } c' = some p' →
        ∃ q, s.pub c' = some q ∧ p'.kind = q.kind := by
      intro c' p' hp'
      rcases setAt_some hp' with ⟨rfl, rfl⟩ | ⟨hne, hp2⟩
      · exact ⟨p, hp, rfl⟩
      · exact ⟨p', hp2, rfl⟩
    refine ⟨?_, ?_, hl.sorted, hl.held, ?_⟩
    · intro c1 p1 c2 p2 h1 hk1 h2 hk2
      obtain ⟨q1, hq1, hk1'⟩ := hpub c1 p1 h1
      obtain ⟨q2, hq2, hk2'⟩ := hpub c2 p2 h2
      exact hl.uniq c1 q1 c2 q2 hq1 (by rw [← hk1', hk1]) hq2 (by rw [← hk2', hk2])
    · intro ht c1 p1 h1 hk1
      obtain ⟨q1, hq1, hk1'⟩ := hpub c1 p1 h1
      exact hl.topic ht c1 q1 hq1 (by rw [← hk1', hk1])
    · intro i f hfi hk c1 p1 d h1 hk1 hd d' hd'
      rcases setAt_some h1 with ⟨rfl, rfl⟩ | ⟨hne, h2⟩
      · have hd2 : some e = some d := hd
        cases hd2
        have hlt := reported_lt (hf.src i f hfi d' hd').1
        have hne := hf.apart i f hfi none e hein d' hd'
        omega
      · exact hl.pub i f hfi hk c1 p1 d h2 hk1 hd d' hd'

theorem offer_same (k : Kind) (e : Ev) (r : Bool) (f : Fil) :
    (offer k e r f).crit = f.crit ∧ (offer k e r f).kind = f.kind ∧ (offer k e r f).got = f.got ∧
    (offer k e r f).buf = f.buf ∧
    ((offer k e r f).holding = f.holding ∨ ((offer k e r f).holding = some e ∧ f.kind = k)) := by
  unfold offer
  split
  · rename_i h
    exact ⟨rfl, rfl, rfl, rfl, Or.inr ⟨rfl, h.2.1⟩⟩
  · exact ⟨rfl, rfl, rfl, rfl, Or.inl rfl⟩

/-- A publishing goroutine hands its event to those who wait. -/
theorem Course.published {s : State} {seen : Nat → List Ev} (hs : Course s seen) {c : Nat} {p : Pub} {e : Ev}
    (r : List Nat) (hp : s.pub c = some p) (he : p.holding = some e) :
    Course { s with
        fil := fun i => (s.fil i).map (offer p.kind e (r.contains i)),
        pub := setAt s.pub c { p with holding := none } } seen := by
  have hf := hs.flow
  have hein : At s (some c) e := ⟨p, hp, he⟩
  have hek : e.kind = p.kind := hf.pkind c p e hp he
  have hat : ∀ x d, At { s with
        fil := fun i => (s.fil i).map (offer p.kind e (r.contains i)),
        pub := setAt s.pub c { p with holding := none } } x d → x ≠ some c ∧ At s x d := by
    intro x d ha
    cases x with
    | none => exact ⟨(fun h => nomatch h), ha⟩
    | some c' =>
      obtain ⟨p', hp', hd⟩ := ha
      rcases setAt_some hp' with ⟨rfl, rfl⟩ | ⟨hne, hp2⟩
      · cases hd
      · exact ⟨fun h => hne (Option.some.inj h), p', hp2, hd⟩
  have hfil : ∀ i f', (s.fil i).map (offer p.kind e (r.contains i)) = some f' →
      ∃ f, s.fil i = some f ∧ f'.crit = f.crit ∧ f'.kind = f.kind ∧ f'.got = f.got ∧ f'.buf = f.buf ∧
        (f'.holding = f.holding ∨ (f'.holding = some e ∧ f.kind = p.kind)) := by
    intro i f' h
    rw [Option.map_eq_some_iff] at h
    obtain ⟨f, h1, rfl⟩ := h
    exact ⟨f, h1, offer_same _ _ _ f⟩
  constructor
  · refine ⟨hf.nums, ?_, ?_, ?_, ?_, ?_, ?_, ?_, ?_, ?_⟩
    · intro i f' hi
      obtain ⟨f, h1, h2, h3, h4, h5, h6⟩ := hfil i f' hi
      rw [h2, h4, h5]
      exact hf.told i f h1
    · intro i f' hi d hd
      obtain ⟨f, h1, h2, h3, h4, h5, h6⟩ := hfil i f' hi
      rw [h3]
      rcases hd with hd | hd
      · exact hf.src i f h1 d (Or.inl hd)
      · rcases h6 with h6 | ⟨h6, hk⟩
        · exact hf.src i f h1 d (Or.inr (by rw [← h6]; exact hd))
        · rw [h6] at hd
          cases hd
          exact ⟨hf.rep _ e hein, by rw [hek, hk]⟩
    · intro i f' hi
      obtain ⟨f, h1, _⟩ := hfil i f' hi
      exact hf.once i f h1
    · intro i f' hi d hd d' hd'
      obtain ⟨f, h1, h2, h3, h4, h5, h6⟩ := hfil i f' hi
      rcases h6 with h6 | ⟨h6, hk⟩
      · exact hf.held i f h1 d (by rw [← h6]; exact hd) d' hd'
      · rw [h6] at hd
        cases hd
        exact hf.apart i f h1 _ e hein d' (Or.inl hd')
    · exact fun x d ha => hf.rep x d (hat x d ha).2
    · exact fun x y d d' ha hb => hf.one x y d d' (hat x d ha).2 (hat y d' hb).2
    · intro i f' hi x d ha d' hd'
      obtain ⟨f, h1, h2, h3, h4, h5, h6⟩ := hfil i f' hi
      obtain ⟨hx, ha'⟩ := hat x d ha
      rcases hd' with hd' | hd'
      · exact hf.apart i f h1 x d ha' d' (Or.inl hd')
      · rcases h6 with h6 | ⟨h6, hk⟩
        · exact hf.apart i f h1 x d ha' d' (Or.inr (by rw [← h6]; exact hd'))
        · rw [h6] at hd'
          cases hd'
          exact fun hn => hx (hf.one _ _ _ _ hein ha' hn).symm
    · intro c' p' d hp' hd
      rcases setAt_some hp' with ⟨rfl, rfl⟩ | ⟨hne, hp2⟩
      · cases hd
      · exact hf.pkind c' p' d hp2 hd
    · intro c' d hd
      obtain ⟨⟨q, hq, hqk⟩, hlen⟩ := hf.ikind c' d hd
      refine ⟨?_, hlen⟩
      by_cases hcc : c' = c
      · subst hcc
        rw [hp] at hq
        cases hq
        exact ⟨_, setAt_same _ _ _, hqk⟩
      · exact ⟨q, (setAt_ne hcc).trans hq, hqk⟩
  · intro k' hc
    have hc' : Calm s k' := by
      intro c' p' hp' hk
      by_cases hcc : c' = c
      · subst hcc
        rw [hp] at hp'
        cases hp'
        exact hc c' { p with holding := none } (setAt_same _ _ _) hk
      · exact hc c' p' ((setAt_ne hcc).trans hp') hk
    have hl := hs.line k' hc'
    have hpub : ∀ c' p', setAt s.pub c { p with holding := none } c' = some p' →
        ∃ q, s.pub c' = some q ∧ p'.kind = q.kind := by
      intro c' p' hp'
      rcases setAt_some hp' with ⟨rfl, rfl⟩ | ⟨hne, hp2⟩
      · exact ⟨p, hp, rfl⟩
      · exact ⟨p', hp2, rfl⟩
    refine ⟨?_, ?_, ?_, ?_, ?_⟩
    · intro c1 p1 c2 p2 h1 hk1 h2 hk2
      obtain ⟨q1, hq1, hk1'⟩ := hpub c1 p1 h1
      obtain ⟨q2, hq2, hk2'⟩ := hpub c2 p2 h2
      exact hl.uniq c1 q1 c2 q2 hq1 (by rw [← hk1', hk1]) hq2 (by rw [← hk2', hk2])
    · intro ht c1 p1 h1 hk1
      obtain ⟨q1, hq1, hk1'⟩ := hpub c1 p1 h1
      exact hl.topic ht c1 q1 hq1 (by rw [← hk1', hk1])
    · intro i f' hi hk
      obtain ⟨f, h1, h2, h3, _⟩ := hfil i f' hi
      exact hl.sorted i f h1 (by rw [← h3, hk])
    · intro i f' hi hk d hd d' hd'
      obtain ⟨f, h1, h2, h3, h4, h5, h6⟩ := hfil i f' hi
      rcases h6 with h6 | ⟨h6, hk6⟩
      · exact hl.held i f h1 (by rw [← h3, hk]) d (by rw [← h6]; exact hd) d' hd'
      · rw [h6] at hd
        cases hd
        exact hl.pub i f h1 (by rw [← h3, hk]) c p e hp (by rw [← hk6, ← h3, hk]) he d' (Or.inl hd')
    · intro i f' hi hk c1 p1 d h1 hk1 hd
      rcases setAt_some h1 with ⟨rfl, rfl⟩ | ⟨hne, h2⟩
      · cases hd
      · obtain ⟨f, hfi, _, h3, _, _, h6⟩ := hfil i f' hi
        intro d' hd'
        rcases hd' with hd' | hd'
        · exact hl.pub i f hfi (by rw [← h3, hk]) c1 p1 d h2 hk1 hd d' (Or.inl hd')
        · rcases h6 with h6 | ⟨h6, hk6⟩
          · exact hl.pub i f hfi (by rw [← h3, hk]) c1 p1 d h2 hk1 hd d' (Or.inr (by rw [← h6]; exact hd'))
          · exact absurd (hl.uniq c1 p1 c p h2 hk1 hp (by rw [← hk6, ← h3, hk])) hne

/-- A goroutine handles its event. -/
theorem Course.handled {s : State} {seen : Nat → List Ev} (hs : Course s seen) {i : Nat} {f : Fil} {e : Ev}
    (hi : s.fil i = some f) (he : f.holding = some e) :
    ∃ seen', Course { s with fil := setAt s.fil i (handled f e) } seen' := by
  have hf := hs.flow
  -- with or without taking the event in
  have key : ∀ f' : Fil, f'.crit = f.crit → f'.kind = f.kind → f'.holding = none →
      ∀ l : List Ev, (l = seen i ∨ l = seen i ++ [e]) → Told f.crit l (f'.got ++ f'.buf) →
      Course { s with fil := setAt s.fil i f' } (fun j => if j = i then l else seen j) := by
    intro f' hcr hki hho l hl htold
    have hother : ∀ j : Nat, j ≠ i → (if j = i then l else seen j) = seen j := fun j h => if_neg h
    have hself : (if i = i then l else seen i) = l := if_pos rfl
    have hmem : ∀ d ∈ l, d ∈ seen i ∨ f.holding = some d := by
      intro d hd
      rcases hl with rfl | rfl
      · exact Or.inl hd
      · rcases List.mem_append.1 hd with h | h
        · exact Or.inl h
        · rw [List.mem_singleton] at h
          exact Or.inr (by rw [h]; exact he)
    constructor
    · refine ⟨hf.nums, ?_, ?_, ?_, ?_, hf.rep, hf.one, ?_, hf.pkind, hf.ikind⟩
      · intro j g hj
        rcases setAt_some hj with ⟨rfl, rfl⟩ | ⟨hne, hj'⟩
        · show Told _ (if j = j then l else seen j) _
          rw [hself, hcr]
          exact htold
        · show Told _ (if j = i then l else seen j) _
          rw [hother j hne]
          exact hf.told j g hj'
      · intro j g hj d hd
        rcases setAt_some hj with ⟨rfl, rfl⟩ | ⟨hne, hj'⟩
        · have hd' : d ∈ (if j = j then l else seen j) ∨ g.holding = some d := hd
          rw [hself, hho] at hd'
          rw [hki]
          rcases hd' with hd' | hd'
          · exact hf.src j f hi d (hmem d hd')
          · cases hd'
        · have hd' : d ∈ (if j = i then l else seen j) ∨ g.holding = some d := hd
          rw [hother j hne] at hd'
          exact hf.src j g hj' d hd'
      · intro j g hj
        rcases setAt_some hj with ⟨rfl, rfl⟩ | ⟨hne, hj'⟩
        · show List.Pairwise _ (if j = j then l else seen j)
          rw [hself]
          rcases hl with rfl | rfl
          · exact hf.once j f hi
          · rw [List.pairwise_append]
            refine ⟨hf.once j f hi, List.pairwise_singleton _ _, ?_⟩
            intro d hd d' hd'
            rw [List.mem_singleton] at hd'
            subst hd'
            exact hf.held j f hi d' he d hd
        · show List.Pairwise _ (if j = i then l else seen j)
          rw [hother j hne]
          exact hf.once j g hj'
      · intro j g hj d hd
        rcases setAt_some hj with ⟨rfl, rfl⟩ | ⟨hne, hj'⟩
        · rw [hho] at hd
          cases hd
        · show ∀ d' ∈ (if j = i then l else seen j), _
          rw [hother j hne]
          exact hf.held j g hj' d hd
      · intro j g hj x d ha d' hd'
        rcases setAt_some hj with ⟨rfl, rfl⟩ | ⟨hne, hj'⟩
        · have hd2 : d' ∈ (if j = j then l else seen j) ∨ g.holding = some d' := hd'
          rw [hself, hho] at hd2
          rcases hd2 with hd2 | hd2
          · exact hf.apart j f hi x d ha d' (hmem d' hd2)
          · cases hd2
        · have hd2 : d' ∈ (if j = i then l else seen j) ∨ g.holding = some d' := hd'
          rw [hother j hne] at hd2
          exact hf.apart j g hj' x d ha d' hd2
    · intro k hc
      have hln := hs.line k hc
      refine ⟨hln.uniq, hln.topic, ?_, ?_, ?_⟩
      · intro j g hj hk
        rcases setAt_some hj with ⟨rfl, rfl⟩ | ⟨hne, hj'⟩
        · show List.Pairwise _ (if j = j then l else seen j)
          rw [hself]
          have hk' : f.kind = k := by rw [← hki, hk]
          rcases hl with rfl | rfl
          · exact hln.sorted j f hi hk'
          · rw [List.pairwise_append]
            refine ⟨hln.sorted j f hi hk', List.pairwise_singleton _ _, ?_⟩
            intro d hd d' hd'
            rw [List.mem_singleton] at hd'
            subst hd'
            exact hln.held j f hi hk' d' he d hd
        · show List.Pairwise _ (if j = i then l else seen j)
          rw [hother j hne]
          exact hln.sorted j g hj' hk
      · intro j g hj hk d hd
        rcases setAt_some hj with ⟨rfl, rfl⟩ | ⟨hne, hj'⟩
        · rw [hho] at hd
          cases hd
        · show ∀ d' ∈ (if j = i then l else seen j), _
          rw [hother j hne]
          exact hln.held j g hj' hk d hd
      · intro j g hj hk c p d hp hpk hd d' hd'
        rcases setAt_some hj with ⟨rfl, rfl⟩ | ⟨hne, hj'⟩
        · have hd2 : d' ∈ (if j = j then l else seen j) ∨ g.holding = some d' := hd'
          rw [hself, hho] at hd2
          rcases hd2 with hd2 | hd2
          · exact hln.pub j f hi (by rw [← hki, hk]) c p d hp hpk hd d' (hmem d' hd2)
          · cases hd2
        · have hd2 : d' ∈ (if j = i then l else seen j) ∨ g.holding = some d' := hd'
          rw [hother j hne] at hd2
          exact hln.pub j g hj' hk c p d hp hpk hd d' hd2
  unfold Poll.handled
  split
  · refine ⟨_, key _ ?_ ?_ ?_ (seen i) (Or.inl rfl) ?_⟩
    · rfl
    · rfl
    · rfl
    · exact hf.told i f hi
  · rename_i is hw
    by_cases hli : f.listed = true
    · rw [if_pos hli]
      refine ⟨_, key _ ?_ ?_ ?_ (seen i ++ [e]) (Or.inr rfl) ?_⟩
      · rfl
      · rfl
      · rfl
      · show Told f.crit (seen i ++ [e]) (f.got ++ (f.buf ++ is))
        rw [← List.append_assoc]
        exact (hf.told i f hi).append (wanted_news hw)
    · rw [if_neg hli]
      refine ⟨_, key _ ?_ ?_ ?_ (seen i) (Or.inl rfl) ?_⟩
      · rfl
      · rfl
      · rfl
      · exact hf.told i f hi

theorem course_move {cap : Nat} {s s' : State} (ht : Topics s) (h : Move cap s s')
    (hc : ∃ seen, Course s seen) : ∃ seen, Course s' seen := by
  obtain ⟨seen, hs⟩ := hc
  cases h with
  | same => exact ⟨seen, hs⟩
  | joined k c h1 h2 h3 =>
    refine ⟨_, hs.new (s' := { s with fil := setAt s.fil s.next (newFil k c false), next := s.next + 1 })
      rfl rfl rfl (fun c p h => Or.inl h) (fun c p h => h) (fun k' h => ⟨h, fun c p hp hn => ?_⟩)
      (fun c c' p p' hp _ hn => ?_)⟩
    · have hp' : s.pub c = some p := hp
      rw [hn] at hp'
      cases hp'
    · have hp' : s.pub c = some p := hp
      rw [hn] at hp'
      cases hp'
  | opened k c h1 h2 h3 =>
    have hfresh : s.pub s.nextPub = none := ht.pubs _ (Nat.le_refl _)
    refine ⟨_, hs.new (s' := { s with
        fil := setAt s.fil s.next (newFil k c true), next := s.next + 1,
        pub := setAt s.pub s.nextPub ⟨k, none, false, false⟩, nextPub := s.nextPub + 1,
        topics := setKind s.topics k true, chan := setKind s.chan k (some s.nextPub) })
      rfl rfl rfl (fun c p hp => ?_) (fun c p hp => ?_) (fun k' hk' => ?_) (fun c c' p p' hp hp' hn hn' => ?_)⟩
    · rcases setAt_some hp with ⟨rfl, rfl⟩ | ⟨_, hp'⟩
      · exact Or.inr ⟨hfresh, rfl, h3, rfl⟩
      · exact Or.inl hp'
    · show setAt _ _ _ c = _
      rw [setAt_ne]
      · exact hp
      · rintro rfl
        rw [hfresh] at hp
        cases hp
    · have hk2 : setKind s.topics k true k' = false := hk'
      have hne : k' ≠ k := by
        rintro rfl
        rw [setKind_same] at hk2
        cases hk2
      rw [setKind_ne hne] at hk2
      refine ⟨hk2, fun c p hp hn => ?_⟩
      rcases setAt_some hp with ⟨rfl, rfl⟩ | ⟨_, hp'⟩
      · exact fun h => hne h.symm
      · rw [hn] at hp'
        cases hp'
    · rcases setAt_some hp with ⟨rfl, _⟩ | ⟨_, hp2⟩
      · rcases setAt_some hp' with ⟨rfl, _⟩ | ⟨_, hp2'⟩
        · rfl
        · rw [hn'] at hp2'
          cases hp2'
      · rw [hn] at hp2
        cases hp2
  | unheard k b h1 h2 =>
    exact ⟨seen, hs.report h1 (k := k) (b := b) rfl rfl (Or.inl h1) rfl rfl⟩
  | heard k b c h1 h2 =>
    obtain ⟨⟨p, hp, hk, _⟩, _⟩ := ht.chan k c h2
    exact ⟨seen, hs.report h1 (k := k) (b := b) rfl rfl (Or.inr ⟨c, p, rfl, hp, hk⟩) rfl rfl⟩
  | sendFails c e p h1 h2 h3 => exact ⟨seen, hs.still (Still.rest rfl rfl (Or.inl rfl) rfl rfl)⟩
  | sent c e p h1 h2 h3 h4 => exact ⟨seen, hs.sent h1 h2⟩
  | dropped => exact ⟨seen, hs.still (Still.rest rfl rfl (Or.inr rfl) rfl rfl)⟩
  | published c p e r h1 h2 => exact ⟨seen, hs.published r h1 h2⟩
  | ended c p h1 h2 h3 =>
    refine ⟨seen, hs.still ⟨rfl, ?_, Or.inl rfl, ?_, ?_, ?_⟩⟩
    · intro i f' hi
      have hi' : (s.fil i).map (shut p.kind) = some f' := hi
      rw [Option.map_eq_some_iff] at hi'
      obtain ⟨f, hf, rfl⟩ := hi'
      refine ⟨f, hf, ?_⟩
      unfold shut
      split <;> exact ⟨rfl, rfl, rfl, rfl⟩
    · intro c' p' hp'
      rcases setAt_some hp' with ⟨rfl, rfl⟩ | ⟨_, hp2⟩
      · exact ⟨p, h1, rfl, rfl⟩
      · exact ⟨p', hp2, rfl, rfl⟩
    · intro c' p' hp'
      by_cases hcc : c' = c
      · subst hcc
        rw [h1] at hp'
        cases hp'
        exact ⟨_, setAt_same _ _ _, rfl, id⟩
      · exact ⟨p', (setAt_ne hcc).trans hp', rfl, id⟩
    · intro k hk hk'
      by_cases hkp : k = p.kind
      · exact ⟨c, _, setAt_same _ _ _, hkp.symm, h2⟩
      · have hk2 : setKind s.topics p.kind false k = false := hk
        rw [setKind_ne hkp, hk'] at hk2
        cases hk2
  | handled i f e hf h1 h2 => exact hs.handled hf h1
  | chEnded i f hf =>
    refine ⟨seen, hs.still (Still.set hf (f' := { f with listed := false, running := false }) ?_ rfl rfl rfl rfl rfl)⟩
    exact ⟨rfl, rfl, rfl, rfl⟩
  | spun i f hf =>
    refine ⟨seen, hs.still (Still.set hf (f' := { f with listed := false }) ?_ rfl rfl rfl rfl rfl)⟩
    exact ⟨rfl, rfl, rfl, rfl⟩
  | errEnded i f hf =>
    refine ⟨seen, hs.still (Still.set hf (f' := { f with listed := false, running := false, subscribed := false })
      ?_ rfl rfl rfl rfl rfl)⟩
    exact ⟨rfl, rfl, rfl, rfl⟩
  | removed i f hf =>
    refine ⟨seen, hs.still (Still.set hf (f' := { f with listed := false, asked := true, removed := true })
      ?_ rfl rfl rfl rfl rfl)⟩
    exact ⟨rfl, rfl, rfl, rfl⟩
  | uninstalled i f s' hf ha hu =>
    have hsame : Same f { f with asked := false, indexed := false, errClosed := true } := ⟨rfl, rfl, rfl, rfl⟩
    cases hu with
    | twice => exact ⟨seen, hs.still (Still.rest rfl rfl (Or.inl rfl) rfl rfl)⟩
    | used => exact ⟨seen, hs.still (Still.set hf hsame rfl rfl rfl rfl rfl)⟩
    | noTopic => exact ⟨seen, hs.still (Still.set hf hsame rfl rfl rfl rfl rfl)⟩
    | closedTwice => exact ⟨seen, hs.still (Still.set hf hsame rfl rfl rfl rfl rfl)⟩
    | closes c p h1 h2 h3 h4 h5 =>
      obtain ⟨⟨q, hq, hqk, _⟩, _⟩ := ht.chan _ c h3
      rw [h4] at hq
      cases hq
      refine ⟨seen, hs.still ⟨rfl, ?_, Or.inl rfl, ?_, ?_, ?_⟩⟩
      · intro j g hj
        rcases setAt_some hj with ⟨rfl, rfl⟩ | ⟨_, hj'⟩
        · exact ⟨f, hf, hsame⟩
        · exact ⟨g, hj', rfl, rfl, rfl, rfl⟩
      · intro c' p' hp'
        rcases setAt_some hp' with ⟨rfl, rfl⟩ | ⟨_, hp2⟩
        · exact ⟨p, h4, rfl, rfl⟩
        · exact ⟨p', hp2, rfl, rfl⟩
      · intro c' p' hp'
        by_cases hcc : c' = c
        · subst hcc
          rw [h4] at hp'
          cases hp'
          exact ⟨_, setAt_same _ _ _, rfl, fun _ => rfl⟩
        · exact ⟨p', (setAt_ne hcc).trans hp', rfl, id⟩
      · intro k hk hk'
        by_cases hkp : k = f.kind
        · exact ⟨c, _, setAt_same _ _ _, by rw [hkp]; exact hqk, rfl⟩
        · have hk2 : setKind s.topics f.kind false k = false := hk
          rw [setKind_ne hkp, hk'] at hk2
          cases hk2
  | polled i f hf =>
    refine ⟨seen, hs.still (Still.set hf (f' := { f with buf := [], got := f.got ++ f.buf })
      ?_ rfl rfl rfl rfl rfl)⟩
    exact ⟨rfl, rfl, List.append_nil _, rfl⟩

theorem course_run (cap : Nat) (ops : List Op) : ∃ seen, Course (run cap ops) seen := by
  refine (run_induction (P := fun s => Topics s ∧ ∃ seen, Course s seen) cap ⟨topics_init, _, course_init⟩ ?_ ops).2
  exact fun s s' h hm => ⟨topics_move h.1 hm, course_move h.1 hm h.2⟩

end Poll
