import Verif.Rpc.SocketsSpec
import Verif.Rpc.LogsLemmas

/-! # WebSocket connections: reading requests -/

namespace Sock

open LogQuery (Log Criteria Matches)

theorem float_small {n : Nat} (h : n ≤ 2 ^ 53) : float n = n := by
  unfold float
  rw [if_pos h]

mutual
theorem again_small (env : Env) (hp : ∀ n, n ≤ 2 ^ 53 → env.print n = n) : ∀ j, Small j → again env j = j
  | .null, _ => rfl
  | .bool _, _ => rfl
  | .num n, h => by
    unfold again
    have h' : n ≤ 2 ^ 53 := h
    rw [float_small h', hp n h']
  | .str _, _ => rfl
  | .arr es, h => by
    unfold again
    rw [agains_small env hp es h]
  | .obj fs, h => by
    unfold again
    rw [againf_small env hp fs h]
theorem agains_small (env : Env) (hp : ∀ n, n ≤ 2 ^ 53 → env.print n = n) : ∀ js, Smalls js → agains env js = js
  | .nil, _ => rfl
  | .cons j js, h => by
    unfold agains
    rw [again_small env hp j h.1, agains_small env hp js h.2]
theorem againf_small (env : Env) (hp : ∀ n, n ≤ 2 ^ 53 → env.print n = n) : ∀ fs, Smallf fs → againf env fs = fs
  | .nil, _ => rfl
  | .cons n v fs, h => by
    unfold againf
    rw [again_small env hp v h.1, againf_small env hp fs h.2]
end

theorem get_mem : ∀ (fs : Fields) (x : Text), fs.get x = none ↔ ∀ p ∈ fs.list, p.1 ≠ x
  | .nil, x => by simp [Fields.get, Fields.list]
  | .cons n v fs, x => by
    have ih := get_mem fs x
    unfold Fields.get Fields.list
    by_cases hn : n = x
    · cases hg : fs.get x <;> simp [hn]
    · rw [if_neg hn]
      cases hg : fs.get x with
      | none =>
        have := ih.1 hg
        simp [hn]
        intro a b hab
        exact this (a, b) hab
      | some w =>
        simp
        intro _
        apply Classical.byContradiction
        intro hc
        have : fs.get x = none := ih.2 (fun p hp he => hc ⟨p.2, by rw [← he]; exact hp⟩)
        rw [hg] at this
        cases this

theorem get_last : ∀ (fs : Fields) (x : Text) (v : Json),
    fs.get x = some v ↔ ∃ pre post, fs.list = pre ++ (x, v) :: post ∧ ∀ p ∈ post, p.1 ≠ x
  | .nil, x, v => by simp [Fields.get, Fields.list]
  | .cons n w fs, x, v => by
    have ih := get_last fs x v
    unfold Fields.get Fields.list
    cases hg : fs.get x with
    | some u =>
      rw [Option.some_or]
      rw [hg] at ih
      constructor
      · intro h
        obtain ⟨pre, post, h1, h2⟩ := ih.1 h
        exact ⟨(n, w) :: pre, post, by rw [h1]; rfl, h2⟩
      · rintro ⟨pre, post, h1, h2⟩
        cases pre with
        | nil =>
          injection h1 with _ h1
          rw [← h1] at h2
          rw [(get_mem fs x).2 h2] at hg
          cases hg
        | cons a pre =>
          injection h1 with _ h1
          exact ih.2 ⟨pre, post, h1, h2⟩
    | none =>
      rw [Option.none_or]
      have hnone := (get_mem fs x).1 hg
      constructor
      · intro h
        split at h
        · next hn =>
          injection h with h
          exact ⟨[], fs.list, by rw [hn, h]; rfl, hnone⟩
        · cases h
      · rintro ⟨pre, post, h1, h2⟩
        cases pre with
        | nil =>
          injection h1 with h0 h1
          injection h0 with h0 h0'
          rw [if_pos h0, h0']
        | cons a pre =>
          injection h1 with _ h1
          exact absurd rfl (hnone (x, v) (by rw [h1]; simp))

theorem strings_some : ∀ (es : Jsons) (ts : List Text), strings es = some ts ↔ es.list = ts.map .str
  | .nil, ts => by
    unfold strings Jsons.list
    cases ts <;> simp
  | .cons j js, ts => by
    have ih := strings_some js
    unfold Jsons.list
    cases j with
    | str t =>
      unfold strings
      cases hs : strings js with
      | none =>
        rw [Option.map_none]
        constructor
        · intro h
          cases h
        · intro h
          cases ts with
          | nil => cases h
          | cons a ts =>
            injection h with _ h
            rw [(ih ts).2 h] at hs
            cases hs
      | some us =>
        rw [Option.map_some]
        constructor
        · intro h
          injection h with h
          rw [← h, (ih us).1 hs]
          rfl
        · intro h
          cases ts with
          | nil => cases h
          | cons a ts =>
            injection h with h0 h
            injection h0 with h0
            have := (ih ts).2 h
            rw [hs] at this
            injection this with this
            rw [this, h0]
    | null => unfold strings; cases ts <;> simp
    | bool _ => unfold strings; cases ts <;> simp
    | num _ => unfold strings; cases ts <;> simp
    | arr _ => unfold strings; cases ts <;> simp
    | obj _ => unfold strings; cases ts <;> simp

theorem strings_iff (es : Jsons) : (∃ ts, strings es = some ts) ↔ Strings es := by
  constructor
  · rintro ⟨ts, h⟩ j hj
    rw [(strings_some es ts).1 h] at hj
    obtain ⟨t, _, ht⟩ := List.mem_map.1 hj
    exact ⟨t, ht.symm⟩
  · intro h
    have : ∀ (l : List Json), (∀ j ∈ l, ∃ t, j = .str t) → ∃ ts : List Text, l = ts.map .str := by
      intro l
      induction l with
      | nil => intro _; exact ⟨[], rfl⟩
      | cons a l ih =>
        intro ha
        obtain ⟨t, ht⟩ := ha a (by simp)
        obtain ⟨ts, hts⟩ := ih (fun j hj => ha j (by simp [hj]))
        exact ⟨t :: ts, by rw [ht, hts]; rfl⟩
    obtain ⟨ts, hts⟩ := this es.list h
    exact ⟨ts, (strings_some es ts).2 hts⟩

theorem named_mem (f : Text → Nat) {es : Jsons} {ts : List Text} (h : es.list = ts.map .str) (a : Nat) :
    (ts.map f = [] ∨ a ∈ ts.map f) ↔ (es.list = [] ∨ ∃ t, .str t ∈ es.list ∧ a = f t) := by
  rw [h]
  simp only [List.map_eq_nil_iff, List.mem_map]
  constructor
  · rintro (h | ⟨t, ht, he⟩)
    · exact .inl h
    · exact .inr ⟨t, ⟨t, ht, rfl⟩, he.symm⟩
  · rintro (h | ⟨t, ⟨u, hu, he⟩, ha⟩)
    · exact .inl h
    · injection he with he
      exact .inr ⟨u, hu, by rw [he, ha]⟩

theorem addresses_read {env : Env} {j : Option Json} {as : List Nat} (h : readAddresses env j = some as) (a : Nat) :
    (as = [] ∨ a ∈ as) ↔ AddressWanted env j a := by
  unfold AddressWanted
  cases j with
  | none =>
    injection h with h
    exact ⟨fun _ => .inl (.inl rfl), fun _ => .inl h.symm⟩
  | some j =>
    cases j with
    | null =>
      injection h with h
      exact ⟨fun _ => .inl (.inr rfl), fun _ => .inl h.symm⟩
    | str t =>
      injection h with h
      subst h
      simp [Unset]
    | arr es =>
      unfold readAddresses at h
      obtain ⟨ts, hts, h⟩ := Option.map_eq_some_iff.1 h
      subst h
      rw [named_mem env.toAddr ((strings_some es ts).1 hts) a]
      constructor
      · intro h
        exact .inr (.inr ⟨es, rfl, h⟩)
      · rintro ((h | h) | ⟨t, h, _⟩ | ⟨es', h, h'⟩)
        · cases h
        · injection h with h; cases h
        · injection h with h; cases h
        · injection h with h
          injection h with h
          rw [h]
          exact h'
    | bool _ => cases h
    | num _ => cases h
    | obj _ => cases h

theorem topic_read {env : Env} {j : Json} {ts : List Nat} (h : readTopic env j = some ts) (x : Nat) :
    (ts = [] ∨ x ∈ ts) ↔ TopicWanted env j x := by
  unfold TopicWanted
  cases j with
  | null =>
    injection h with h
    exact ⟨fun _ => .inl rfl, fun _ => .inl h.symm⟩
  | str t =>
    injection h with h
    subst h
    simp
  | arr es =>
    unfold readTopic at h
    obtain ⟨us, hus, h⟩ := Option.map_eq_some_iff.1 h
    subst h
    rw [named_mem env.toHash ((strings_some es us).1 hus) x]
    constructor
    · intro h
      exact .inr (.inr ⟨es, rfl, h⟩)
    · rintro (h | ⟨t, h, _⟩ | ⟨es', h, h'⟩)
      · cases h
      · cases h
      · injection h with h
        rw [h]
        exact h'
  | bool _ => cases h
  | num _ => cases h
  | obj _ => cases h

theorem topicList_read (env : Env) : ∀ (es : Jsons) (tss : List (List Nat)), readTopicList env es = some tss →
    tss.length = es.list.length ∧
    ∀ (i : Nat) (p : Json) (ts : List Nat), es.list[i]? = some p → tss[i]? = some ts → readTopic env p = some ts
  | .nil, tss, h => by
    injection h with h
    subst h
    exact ⟨rfl, fun i p ts hp _ => by simp [Jsons.list] at hp⟩
  | .cons j js, tss, h => by
    unfold readTopicList at h
    cases hj : readTopic env j with
    | none => rw [hj] at h; cases h
    | some t =>
      rw [hj] at h
      obtain ⟨us, hus, h⟩ := Option.map_eq_some_iff.1 h
      subst h
      obtain ⟨ih1, ih2⟩ := topicList_read env js us hus
      refine ⟨by simp [Jsons.list, ih1], ?_⟩
      intro i p ts hp hts
      cases i with
      | zero =>
        simp only [Jsons.list, List.getElem?_cons_zero, Option.some.injEq] at hp hts
        rw [← hp, ← hts, hj]
      | succ i =>
        simp only [Jsons.list, List.getElem?_cons_succ] at hp hts
        exact ih2 i p ts hp hts

theorem topicList_iff (env : Env) : ∀ (es : Jsons),
    (∃ tss, readTopicList env es = some tss) ↔
      ∀ p ∈ es.list, p = .null ∨ (∃ t, p = .str t) ∨ ∃ xs, p = .arr xs ∧ Strings xs
  | .nil => by simp [readTopicList, Jsons.list]
  | .cons j js => by
    have ih := topicList_iff env js
    have hj : (∃ ts, readTopic env j = some ts) ↔
        (j = .null ∨ (∃ t, j = .str t) ∨ ∃ xs, j = .arr xs ∧ Strings xs) := by
      cases j with
      | null => simp [readTopic]
      | str t => simp [readTopic]
      | arr es =>
        have := strings_iff es
        simp [readTopic]
        rw [← this]
        cases strings es <;> simp
      | bool _ => simp [readTopic]
      | num _ => simp [readTopic]
      | obj _ => simp [readTopic]
    unfold readTopicList Jsons.list
    constructor
    · rintro ⟨tss, h⟩ p hp
      cases h1 : readTopic env j with
      | none => rw [h1] at h; cases h
      | some t =>
        rw [h1] at h
        obtain ⟨us, hus, _⟩ := Option.map_eq_some_iff.1 h
        rcases List.mem_cons.1 hp with he | hm
        · rw [he]
          exact hj.1 ⟨t, h1⟩
        · exact ih.1 ⟨us, hus⟩ p hm
    · intro h
      obtain ⟨t, ht⟩ := hj.2 (h j (by simp))
      obtain ⟨us, hus⟩ := ih.2 (fun p hp => h p (by simp [hp]))
      exact ⟨t :: us, by rw [ht, hus]; rfl⟩

theorem topics_read {env : Env} {j : Option Json} {tss : List (List Nat)} (h : readTopics env j = some tss)
    (xs : List Nat) :
    (∀ (i : Nat) (sub : List Nat), tss[i]? = some sub → ∃ t, xs[i]? = some t ∧ (sub = [] ∨ t ∈ sub)) ↔
      TopicsWanted env j xs := by
  unfold TopicsWanted
  cases j with
  | none =>
    injection h with h
    subst h
    simp [Unset]
  | some j =>
    cases j with
    | null =>
      injection h with h
      subst h
      simp [Unset]
    | arr es =>
      obtain ⟨h1, h2⟩ := topicList_read env es tss h
      constructor
      · intro ha
        refine .inr ⟨es, rfl, fun i p hp => ?_⟩
        have hi : i < es.list.length := (List.getElem?_eq_some_iff.1 hp).1
        have hs : tss[i]? = some (tss[i]'(by rw [h1]; exact hi)) := List.getElem?_eq_getElem _
        obtain ⟨t, ht, hm⟩ := ha i _ hs
        exact ⟨t, ht, (topic_read (h2 i p _ hp hs) t).1 hm⟩
      · rintro ((ha | ha) | ⟨es', he, ha⟩)
        · cases ha
        · injection ha with ha; cases ha
        · injection he with he
          injection he with he
          subst he
          intro i sub hs
          have hi : i < tss.length := (List.getElem?_eq_some_iff.1 hs).1
          have hp : es.list[i]? = some (es.list[i]'(by rw [← h1]; exact hi)) := List.getElem?_eq_getElem _
          obtain ⟨x, hx, hm⟩ := ha i _ hp
          exact ⟨x, hx, (topic_read (h2 i _ _ hp hs) x).2 hm⟩
    | str _ => cases h
    | bool _ => cases h
    | num _ => cases h
    | obj _ => cases h

theorem criteria_read {env : Env} {j : Option Json} {c : Criteria} (h : readCriteria env j = some c) (l : Log) :
    Matches c l ↔ LogWanted env j l := by
  unfold LogWanted Matches
  cases j with
  | none =>
    injection h with h
    subst h
    simp [Unset]
  | some j =>
    cases j with
    | null =>
      injection h with h
      subst h
      simp [Unset]
    | obj fs =>
      unfold readCriteria at h
      dsimp only at h
      cases ha : readAddresses env (fs.get (text "address")) with
      | none => rw [ha] at h; cases h
      | some as =>
        rw [ha] at h
        obtain ⟨tss, ht, h⟩ := Option.map_eq_some_iff.1 h
        subst h
        rw [addresses_read ha l.address, topics_read ht l.topics]
        constructor
        · rintro ⟨h1, h2⟩
          exact .inr ⟨fs, rfl, h1, h2⟩
        · rintro ((h | h) | ⟨fs', he, h1, h2⟩)
          · cases h
          · injection h with h; cases h
          · injection he with he
            injection he with he
            subst he
            exact ⟨h1, h2⟩
    | str _ => cases h
    | bool _ => cases h
    | num _ => cases h
    | arr _ => cases h

theorem criteria_iff (env : Env) (j : Option Json) :
    (∃ c, readCriteria env j = some c) ↔ GoodCriteria j := by
  unfold GoodCriteria
  cases j with
  | none => simp [readCriteria, Unset]
  | some j =>
    cases j with
    | null => simp [readCriteria, Unset]
    | obj fs =>
      have ha : (∃ as, readAddresses env (fs.get (text "address")) = some as) ↔
          (Unset (fs.get (text "address")) ∨ (∃ t, fs.get (text "address") = some (.str t)) ∨
            ∃ es, fs.get (text "address") = some (.arr es) ∧ Strings es) := by
        cases fs.get (text "address") with
        | none => simp [readAddresses, Unset]
        | some a =>
          cases a with
          | null => simp [readAddresses, Unset]
          | str t => simp [readAddresses, Unset]
          | arr es =>
            have := strings_iff es
            simp [readAddresses, Unset]
            rw [← this]
            cases strings es <;> simp
          | bool _ => simp [readAddresses, Unset]
          | num _ => simp [readAddresses, Unset]
          | obj _ => simp [readAddresses, Unset]
      have ht : (∃ tss, readTopics env (fs.get (text "topics")) = some tss) ↔
          (Unset (fs.get (text "topics")) ∨
            ∃ es, fs.get (text "topics") = some (.arr es) ∧
              ∀ p ∈ es.list, p = .null ∨ (∃ t, p = .str t) ∨ ∃ xs, p = .arr xs ∧ Strings xs) := by
        cases fs.get (text "topics") with
        | none => simp [readTopics, Unset]
        | some a =>
          cases a with
          | null => simp [readTopics, Unset]
          | arr es =>
            have := topicList_iff env es
            simp only [readTopics, Unset]
            rw [this]
            constructor
            · intro h
              exact .inr ⟨es, rfl, h⟩
            · rintro ((h | h) | ⟨es', h, h'⟩)
              · cases h
              · injection h with h; cases h
              · injection h with h
                injection h with h
                subst h
                exact h'
          | str _ => simp [readTopics, Unset]
          | bool _ => simp [readTopics, Unset]
          | num _ => simp [readTopics, Unset]
          | obj _ => simp [readTopics, Unset]
      constructor
      · rintro ⟨c, h⟩
        unfold readCriteria at h
        dsimp only at h
        cases h1 : readAddresses env (fs.get (text "address")) with
        | none => rw [h1] at h; cases h
        | some as =>
          rw [h1] at h
          obtain ⟨tss, h2, _⟩ := Option.map_eq_some_iff.1 h
          exact .inr ⟨fs, rfl, ha.1 ⟨as, h1⟩, ht.1 ⟨tss, h2⟩⟩
      · rintro ((h | h) | ⟨fs', he, h1, h2⟩)
        · cases h
        · injection h with h; cases h
        · injection he with he
          injection he with he
          subst he
          obtain ⟨as, has⟩ := ha.2 h1
          obtain ⟨tss, hts⟩ := ht.2 h2
          exact ⟨⟨as, tss⟩, by unfold readCriteria; dsimp only; rw [has, hts]; rfl⟩
    | str _ => simp [readCriteria, Unset]
    | bool _ => simp [readCriteria, Unset]
    | num _ => simp [readCriteria, Unset]
    | arr _ => simp [readCriteria, Unset]

end Sock
