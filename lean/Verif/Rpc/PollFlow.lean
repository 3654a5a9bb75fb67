import Verif.Rpc.PollLemmas2
import Verif.Rpc.PollSpec
import Verif.Rpc.LogsLemmas

/-!
# Polling filters: events on their way
-/

namespace Poll

open LogQuery (Log Criteria filterLogs keeps Matches)

/-! ## What a goroutine makes of an event -/

theorem keeps_iff (c : Crit) (l : Log) :
    keeps c.fromBlock c.toBlock c.crit l = true ↔ Asked c l := by
  obtain ⟨fb, tb, cr⟩ := c
  have hb : keeps.body cr l = true ↔ Matches cr l := LogQuery.body_iff cr l
  have ht : keeps.tail tb cr l = true ↔
      Matches cr l ∧ ∀ t : Int, tb = some t → 0 ≤ t → (l.block : Int) ≤ t := by
    unfold keeps.tail
    cases tb with
    | none =>
      dsimp only
      rw [hb]
      exact ⟨fun h => ⟨h, fun t h1 => nomatch h1⟩, fun h => h.1⟩
    | some t =>
      dsimp only
      by_cases h2 : 0 ≤ t ∧ t < (l.block : Int)
      · rw [if_pos h2]
        exact ⟨(fun h => nomatch h), fun h => absurd (h.2 t rfl h2.1) (by omega)⟩
      · rw [if_neg h2, hb]
        refine ⟨fun h => ⟨h, fun t' h1 h3 => ?_⟩, fun h => h.1⟩
        cases h1
        omega
  unfold keeps Asked
  cases fb with
  | none =>
    dsimp only
    rw [ht]
    exact ⟨fun h => ⟨h.1, (fun f h1 => nomatch h1), h.2⟩, fun h => ⟨h.1, h.2.2⟩⟩
  | some f =>
    dsimp only
    by_cases h1 : 0 ≤ f ∧ (l.block : Int) < f
    · rw [if_pos h1]
      exact ⟨(fun h => nomatch h), fun h => absurd (h.2.1 f rfl h1.1) (by omega)⟩
    · rw [if_neg h1, ht]
      refine ⟨fun h => ⟨h.1, fun f' h2 h3 => ?_, h.2⟩, fun h => ⟨h.1, h.2.2⟩⟩
      cases h2
      omega

theorem filter_chosen (c : Crit) (ls : List Log) :
    Chosen c ls (filterLogs c.fromBlock c.toBlock c.crit ls) := by
  induction ls with
  | nil => exact .nil
  | cons l ls ih =>
    unfold filterLogs
    by_cases h : keeps c.fromBlock c.toBlock c.crit l = true
    · rw [if_pos h]
      exact .take ((keeps_iff c l).1 h) ih
    · rw [if_neg h]
      exact .skip (fun h1 => h ((keeps_iff c l).2 h1)) ih

theorem wanted_news {f : Fil} {e : Ev} {is : List Item} (h : wanted f e = some is) :
    News f.crit e.body is := by
  unfold wanted at h
  split at h
  · cases h
  · rename_i hb
    cases h
    rw [hb]
    exact .empty
  · rename_i r rs hb
    cases h
    rw [hb]
    exact .first (filter_chosen f.crit r)
  · rename_i hb
    cases h
    rw [hb]
    exact .header
  · rename_i hb
    cases h
    rw [hb]
    exact .txs

theorem Told.append {c : Crit} {es : List Ev} {js : List Item} (h : Told c es js) {e : Ev}
    {is : List Item} (hn : News c e.body is) : Told c (es ++ [e]) (js ++ is) := by
  induction h with
  | nil =>
    have := Told.cons hn (Told.nil (c := c))
    rw [List.append_nil] at this
    exact this
  | cons h1 _ ih =>
    rw [List.append_assoc]
    exact .cons h1 ih

/-! ## Events on their way -/

/-- The event is with the reading loop, or with a publishing goroutine. -/
def At (s : State) : Option Nat → Ev → Prop
  | none, e => ∃ c, s.inflight = some (c, e)
  | some c, e => ∃ p, s.pub c = some p ∧ p.holding = some e

/-- Every event is at one place; `seen i` are those that filter `i` has taken in. -/
structure Flow (s : State) (seen : Nat → List Ev) : Prop where
  nums : ∀ (n : Nat) (e : Ev), s.log[n]? = some e → e.no = n
  told : ∀ i f, s.fil i = some f → Told f.crit (seen i) (f.got ++ f.buf)
  src : ∀ i f, s.fil i = some f → ∀ e, (e ∈ seen i ∨ f.holding = some e) → Reported s e ∧ e.kind = f.kind
  once : ∀ i f, s.fil i = some f → (seen i).Pairwise (fun d e => d.no ≠ e.no)
  held : ∀ i f, s.fil i = some f → ∀ e, f.holding = some e → ∀ d ∈ seen i, d.no ≠ e.no
  rep : ∀ x e, At s x e → Reported s e
  one : ∀ x y (e d : Ev), At s x e → At s y d → e.no = d.no → x = y
  apart : ∀ i f, s.fil i = some f → ∀ x (e : Ev), At s x e → ∀ d : Ev, (d ∈ seen i ∨ f.holding = some d) → d.no ≠ e.no
  pkind : ∀ c p e, s.pub c = some p → p.holding = some e → e.kind = p.kind
  ikind : ∀ c e, s.inflight = some (c, e) →
    (∃ p, s.pub c = some p ∧ p.kind = e.kind) ∧ e.no + 1 = s.log.length

/-- No topic of this kind was ever closed. -/
def Calm (s : State) (k : Kind) : Prop := ∀ c p, s.pub c = some p → p.kind = k → p.closed = false

/-- The order of the events of a kind whose topic was never closed. -/
structure Line (s : State) (seen : Nat → List Ev) (k : Kind) : Prop where
  uniq : ∀ c p c' p', s.pub c = some p → p.kind = k → s.pub c' = some p' → p'.kind = k → c = c'
  topic : s.topics k = false → ∀ c p, s.pub c = some p → p.kind ≠ k
  sorted : ∀ i f, s.fil i = some f → f.kind = k → (seen i).Pairwise (fun d e => d.no < e.no)
  held : ∀ i f, s.fil i = some f → f.kind = k → ∀ e, f.holding = some e → ∀ d ∈ seen i, d.no < e.no
  pub : ∀ i f, s.fil i = some f → f.kind = k → ∀ c p e, s.pub c = some p → p.kind = k →
    p.holding = some e → ∀ d, (d ∈ seen i ∨ f.holding = some d) → d.no < e.no

/-- Both. -/
structure Course (s : State) (seen : Nat → List Ev) : Prop where
  flow : Flow s seen
  line : ∀ k, Calm s k → Line s seen k

theorem reported_lt {s : State} {e : Ev} (h : Reported s e) : e.no < s.log.length :=
  (List.getElem?_eq_some_iff.1 h).1

/-- What counts of a filter. -/
structure Same (f f' : Fil) : Prop where
  crit : f'.crit = f.crit
  kind : f'.kind = f.kind
  items : f'.got ++ f'.buf = f.got ++ f.buf
  holding : f'.holding = f.holding

/-- A move that leaves events where they are, or loses the one of the reading loop. -/
structure Still (s s' : State) : Prop where
  log : s'.log = s.log
  fil : ∀ i f', s'.fil i = some f' → ∃ f, s.fil i = some f ∧ Same f f'
  inflight : s'.inflight = s.inflight ∨ s'.inflight = none
  pub : ∀ c p', s'.pub c = some p' → ∃ p, s.pub c = some p ∧ p'.kind = p.kind ∧ p'.holding = p.holding
  back : ∀ c p, s.pub c = some p → ∃ p', s'.pub c = some p' ∧ p'.kind = p.kind ∧ (p.closed = true → p'.closed = true)
  topic : ∀ k, s'.topics k = false → s.topics k = true → ∃ c p, s'.pub c = some p ∧ p.kind = k ∧ p.closed = true

theorem Still.at {s s' : State} (h : Still s s') {x : Option Nat} {e : Ev} (ha : At s' x e) : At s x e := by
  cases x with
  | none =>
    obtain ⟨c, hc⟩ := ha
    rcases h.inflight with h1 | h1
    · rw [h1] at hc
      exact ⟨c, hc⟩
    · rw [h1] at hc
      cases hc
  | some c =>
    obtain ⟨p', hp, he⟩ := ha
    obtain ⟨p, h1, _, h2⟩ := h.pub c p' hp
    exact ⟨p, h1, by rw [← h2]; exact he⟩

theorem Course.still {s s' : State} {seen : Nat → List Ev} (hs : Course s seen) (h : Still s s') :
    Course s' seen := by
  have hr : ∀ e, Reported s' e ↔ Reported s e := by
    intro e
    unfold Reported
    rw [h.log]
  have hf := hs.flow
  constructor
  · refine ⟨?_, ?_, ?_, ?_, ?_, ?_, ?_, ?_, ?_, ?_⟩
    · rw [h.log]
      exact hf.nums
    · intro i f' hf'
      obtain ⟨f, h1, h2⟩ := h.fil i f' hf'
      rw [h2.crit, h2.items]
      exact hf.told i f h1
    · intro i f' hf' e he
      obtain ⟨f, h1, h2⟩ := h.fil i f' hf'
      rw [h2.holding] at he
      rw [hr, h2.kind]
      exact hf.src i f h1 e he
    · intro i f' hf'
      obtain ⟨f, h1, h2⟩ := h.fil i f' hf'
      exact hf.once i f h1
    · intro i f' hf' e he
      obtain ⟨f, h1, h2⟩ := h.fil i f' hf'
      rw [h2.holding] at he
      exact hf.held i f h1 e he
    · exact fun x e ha => (hr e).2 (hf.rep x e (h.at ha))
    · exact fun x y e d ha hb => hf.one x y e d (h.at ha) (h.at hb)
    · intro i f' hf' x e ha d hd
      obtain ⟨f, h1, h2⟩ := h.fil i f' hf'
      rw [h2.holding] at hd
      exact hf.apart i f h1 x e (h.at ha) d hd
    · intro c p' e hp he
      obtain ⟨p, h1, h2, h3⟩ := h.pub c p' hp
      rw [h3] at he
      rw [h2]
      exact hf.pkind c p e h1 he
    · intro c e he
      rcases h.inflight with h1 | h1
      · rw [h1] at he
        obtain ⟨⟨p, hp, hk⟩, hn⟩ := hf.ikind c e he
        obtain ⟨p', h2, h3, _⟩ := h.back c p hp
        exact ⟨⟨p', h2, by rw [h3, hk]⟩, by rw [h.log]; exact hn⟩
      · rw [h1] at he
        cases he
  · intro k hc
    have hc' : Calm s k := by
      intro c p hp hk
      obtain ⟨p', h1, h2, h3⟩ := h.back c p hp
      cases hcl : p.closed with
      | false => rfl
      | true =>
        have := hc c p' h1 (by rw [h2, hk])
        rw [h3 hcl] at this
        cases this
    have hl := hs.line k hc'
    refine ⟨?_, ?_, ?_, ?_, ?_⟩
    · intro c p c2 p2 hp hk hp2 hk2
      obtain ⟨q, h1, h2, _⟩ := h.pub c p hp
      obtain ⟨q2, h3, h4, _⟩ := h.pub c2 p2 hp2
      exact hl.uniq c q c2 q2 h1 (by rw [← h2, hk]) h3 (by rw [← h4, hk2])
    · intro ht c p hp hk
      cases hts : s.topics k with
      | false =>
        obtain ⟨q, h1, h2, _⟩ := h.pub c p hp
        exact hl.topic hts c q h1 (by rw [← h2, hk])
      | true =>
        obtain ⟨c2, p2, h1, h2, h3⟩ := h.topic k ht hts
        rw [hc c2 p2 h1 h2] at h3
        cases h3
    · intro i f' hf' hk
      obtain ⟨f, h1, h2⟩ := h.fil i f' hf'
      exact hl.sorted i f h1 (by rw [← h2.kind, hk])
    · intro i f' hf' hk e he
      obtain ⟨f, h1, h2⟩ := h.fil i f' hf'
      rw [h2.holding] at he
      exact hl.held i f h1 (by rw [← h2.kind, hk]) e he
    · intro i f' hf' hk c p e hp hpk he d hd
      obtain ⟨f, h1, h2⟩ := h.fil i f' hf'
      obtain ⟨q, h3, h4, h5⟩ := h.pub c p hp
      rw [h2.holding] at hd
      rw [h5] at he
      exact hl.pub i f h1 (by rw [← h2.kind, hk]) c q e h3 (by rw [← h4, hpk]) he d hd

/-- One filter changes in what does not count. -/
theorem Still.set {s s' : State} {i : Nat} {f f' : Fil} (hf : s.fil i = some f) (hsame : Same f f')
    (h1 : s'.fil = setAt s.fil i f') (h2 : s'.log = s.log)
    (h3 : s'.inflight = s.inflight) (h4 : s'.pub = s.pub) (h5 : s'.topics = s.topics) : Still s s' where
  log := h2
  fil := by
    intro j g hj
    rw [h1] at hj
    rcases setAt_some hj with ⟨rfl, rfl⟩ | ⟨_, hj'⟩
    · exact ⟨f, hf, hsame⟩
    · exact ⟨g, hj', rfl, rfl, rfl, rfl⟩
  inflight := Or.inl h3
  pub := by
    intro c p hp
    rw [h4] at hp
    exact ⟨p, hp, rfl, rfl⟩
  back := by
    intro c p hp
    rw [h4]
    exact ⟨p, hp, rfl, id⟩
  topic := by
    intro k hk hk'
    rw [h5, hk'] at hk
    cases hk

/-- Nothing that counts changes. -/
theorem Still.rest {s s' : State} (h1 : s'.fil = s.fil) (h2 : s'.log = s.log)
    (h3 : s'.inflight = s.inflight ∨ s'.inflight = none) (h4 : s'.pub = s.pub)
    (h5 : s'.topics = s.topics) : Still s s' where
  log := h2
  fil := by
    intro j g hj
    rw [h1] at hj
    exact ⟨g, hj, rfl, rfl, rfl, rfl⟩
  inflight := h3
  pub := by
    intro c p hp
    rw [h4] at hp
    exact ⟨p, hp, rfl, rfl⟩
  back := by
    intro c p hp
    rw [h4]
    exact ⟨p, hp, rfl, id⟩
  topic := by
    intro k hk hk'
    rw [h5, hk'] at hk
    cases hk

theorem course_init : Course init (fun _ => []) where
  flow := by
    refine ⟨?_, (fun _ _ h => nomatch h), (fun _ _ h => nomatch h), (fun _ _ h => nomatch h),
      (fun _ _ h => nomatch h), ?_, ?_, (fun _ _ h => nomatch h), (fun _ _ _ h => nomatch h),
      (fun _ _ h => nomatch h)⟩
    · intro n e h
      have h' : ([] : List Ev)[n]? = some e := h
      rw [List.getElem?_nil] at h'
      cases h'
    · intro x e h
      cases x with
      | none =>
        obtain ⟨_, h⟩ := h
        cases h
      | some c =>
        obtain ⟨_, h, _⟩ := h
        cases h
    · intro x y e d h
      cases x with
      | none =>
        obtain ⟨_, h⟩ := h
        cases h
      | some c =>
        obtain ⟨_, h, _⟩ := h
        cases h
  line := fun _ _ => ⟨(fun _ _ _ _ h => nomatch h), (fun _ _ _ h => nomatch h), (fun _ _ h => nomatch h),
    (fun _ _ h => nomatch h), (fun _ _ h => nomatch h)⟩

end Poll
