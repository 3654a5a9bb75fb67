import Verif.Rpc.IndexSpec
/-!
# Lemmas on the index: events read back, the loop over a block
-/

namespace EthIndex

/-! ## Events read back -/

theorem fillAll_ante (idx : Nat) (m : Msg) :
    fillAll [.hash m.hash, .index idx] = ⟨m.hash, some idx, 0, false⟩ := rfl

theorem fillAll_msg (idx : Nat) (m : Msg) :
    fillAll (msgAttrs idx m) = ⟨m.hash, some idx, m.used, decide (m.error ≠ [])⟩ := by
  unfold msgAttrs
  cases m.create <;> cases he : m.error with
  | nil => simp [fillAll, fill]
  | cons c cs => simp [fillAll, fill]

theorem msgAttrs_length (idx : Nat) (m : Msg) : 5 ≤ (msgAttrs idx m).length := by
  unfold msgAttrs; rw [List.length_append, List.length_append]
  show 5 ≤ 5 + _ + _; omega

/-- The entries after the first part. -/
def firsts (idx : Nat) : List Msg → List Parsed
  | [] => []
  | m :: ms => ⟨m.hash, some idx, 0, false⟩ :: firsts (idx + 1) ms

/-- The entries after the second part. -/
def seconds (idx : Nat) : List Msg → List Parsed
  | [] => []
  | m :: ms => ⟨m.hash, some idx, m.used, decide (m.error ≠ [])⟩ :: seconds (idx + 1) ms

theorem firsts_length (ms : List Msg) : ∀ idx, (firsts idx ms).length = ms.length := by
  induction ms with
  | nil => intro _; rfl
  | cons m ms ih => intro idx; simp only [firsts, List.length_cons, ih]

theorem seconds_length (ms : List Msg) : ∀ idx, (seconds idx ms).length = ms.length := by
  induction ms with
  | nil => intro _; rfl
  | cons m ms ih => intro idx; simp only [seconds, List.length_cons, ih]

theorem seconds_get (ms : List Msg) : ∀ (idx j : Nat) (m : Msg), ms[j]? = some m →
    (seconds idx ms)[j]? = some ⟨m.hash, some (idx + j), m.used, decide (m.error ≠ [])⟩ := by
  induction ms with
  | nil => intro _ j m h; simp at h
  | cons a ms ih =>
    intro idx j m h
    cases j with
    | zero => simp only [List.getElem?_cons_zero, Option.some.injEq] at h; subst h; rfl
    | succ j =>
      rw [List.getElem?_cons_succ] at h
      simp only [seconds, List.getElem?_cons_succ]
      rw [ih (idx + 1) j m h, show idx + 1 + j = idx + (j + 1) by omega]

theorem readAll_append (es es' : List Event) : ∀ r, readAll r (es ++ es') =
    match readAll r es with | none => none | some r' => readAll r' es' := by
  induction es with
  | nil => intro r; rfl
  | cons e es ih =>
    intro r
    show (match read r e with | none => none | some r' => readAll r' (es ++ es')) = _
    show _ = match (match read r e with | none => none | some r' => readAll r' es) with
      | none => none | some r' => readAll r' es'
    cases read r e with
    | none => rfl
    | some r' => exact ih r'

theorem read_ante (f : Option Bool) (hf : f = none ∨ f = some false) (n : Nat) (ps : List Parsed) (idx : Nat)
    (m : Msg) : read ⟨f, n, ps⟩ (.eth [.hash m.hash, .index idx])
      = some ⟨some false, n, ps ++ [⟨m.hash, some idx, 0, false⟩]⟩ := by
  rcases hf with rfl | rfl <;> rfl

theorem readAll_ante (ms : List Msg) : ∀ (f : Option Bool) (n : Nat) (ps : List Parsed) (idx : Nat),
    f = none ∨ f = some false →
    ∃ f', (f' = none ∨ f' = some false) ∧ (ms ≠ [] → f' = some false) ∧
      readAll ⟨f, n, ps⟩ (anteEvents idx ms) = some ⟨f', n, ps ++ firsts idx ms⟩ := by
  induction ms with
  | nil => intro f n ps idx hf; exact ⟨f, hf, fun h => absurd rfl h, by simp [anteEvents, readAll, firsts]⟩
  | cons m ms ih =>
    intro f n ps idx hf
    obtain ⟨f', h1, _, h3⟩ := ih (some false) n (ps ++ [⟨m.hash, some idx, 0, false⟩]) (idx + 1) (.inr rfl)
    refine ⟨some false, .inr rfl, fun _ => rfl, ?_⟩
    have hff : f' = some false := by
      cases ms with
      | nil =>
        simp only [anteEvents, readAll, Option.some.injEq, Reading.mk.injEq] at h3
        exact h3.1.symm
      | cons a l => rename_i h2; exact h2 (by simp)
    show (match read ⟨f, n, ps⟩ (.eth [.hash m.hash, .index idx]) with
      | none => none | some r' => readAll r' (anteEvents (idx + 1) ms)) = _
    rw [read_ante f hf]
    dsimp only
    rw [h3, hff, List.append_assoc]; rfl

theorem read_msg (ps : List Parsed) (a : Parsed) (rest : List Parsed) (idx : Nat) (m : Msg) :
    read ⟨some false, ps.length, ps ++ a :: rest⟩ (.eth (msgAttrs idx m))
      = some ⟨some false, ps.length + 1, ps ++ ⟨m.hash, some idx, m.used, decide (m.error ≠ [])⟩ :: rest⟩ := by
  have h5 := msgAttrs_length idx m
  unfold read
  dsimp only
  rw [if_neg (by omega)]
  show (if false = true then _ else _) = _
  rw [if_neg (by decide), if_pos (by simp), fillAll_msg]
  simp

theorem readAll_msg (ms : List Msg) : ∀ (ps rest : List Parsed) (idx : Nat), rest.length = ms.length →
    readAll ⟨some false, ps.length, ps ++ rest⟩ (msgEvents idx ms)
      = some ⟨some false, ps.length + ms.length, ps ++ seconds idx ms⟩ := by
  induction ms with
  | nil =>
    intro ps rest idx h
    cases rest with
    | nil => rfl
    | cons a l => simp at h
  | cons m ms ih =>
    intro ps rest idx h
    cases rest with
    | nil => simp at h
    | cons a l =>
      show (match read ⟨some false, ps.length, ps ++ a :: l⟩ (.eth (msgAttrs idx m)) with
        | none => none
        | some r' => readAll r' (.log m.logs :: .other :: msgEvents (idx + 1) ms)) = _
      rw [read_msg]
      dsimp only
      show readAll _ (msgEvents (idx + 1) ms) = _
      have := ih (ps ++ [⟨m.hash, some idx, m.used, decide (m.error ≠ [])⟩]) l (idx + 1) (by simpa using h)
      rw [List.length_append, List.length_singleton, List.append_assoc, List.append_assoc] at this
      rw [List.singleton_append] at this
      rw [this]
      simp only [seconds, List.length_cons]
      rw [show ps.length + 1 + ms.length = ps.length + (ms.length + 1) by omega]; rfl

/-- What an executed transaction reports is read back. -/
theorem readAll_exec (idx : Nat) (ms : List Msg) :
    ∃ f n, readAll ⟨none, 0, []⟩ (anteEvents idx ms ++ msgEvents idx ms) = some ⟨f, n, seconds idx ms⟩ := by
  obtain ⟨f', _, h2, h3⟩ := readAll_ante ms none 0 [] idx (.inl rfl)
  rw [readAll_append, h3]
  dsimp only
  cases ms with
  | nil => exact ⟨f', 0, rfl⟩
  | cons m ms =>
    rw [h2 (by simp), List.nil_append]
    exact ⟨_, _, readAll_msg (m :: ms) [] (firsts idx (m :: ms)) idx (firsts_length _ _)⟩

theorem single_seconds (gas idx : Nat) (ms : List Msg) (hg : gas = (ms.map (·.used)).sum) :
    single gas (seconds idx ms) = seconds idx ms := by
  match ms with
  | [] => rfl
  | [m] => simp only [seconds, single, hg, List.map_cons, List.map_nil, List.sum_cons, List.sum_nil]; rfl
  | _ :: _ :: _ => rfl

theorem parse_ok (idx gas : Nat) (t : Tx) (hg : gas = (t.eths.map (·.used)).sum) :
    parse ⟨0, false, gas, anteEvents idx t.eths ++ msgEvents idx t.eths⟩ t = some (seconds idx t.eths) := by
  obtain ⟨f, n, h⟩ := readAll_exec idx t.eths
  unfold parse
  dsimp only
  rw [h]
  dsimp only
  rw [if_neg (by decide), single_seconds gas idx t.eths hg]

theorem spendAll_some (ms : List Msg) : ∀ ps : List Parsed, ps.length = ms.length →
    ∃ qs, spendAll ps (ms.map some) = some qs ∧ qs.length = ms.length := by
  induction ms with
  | nil => intro ps h; cases ps with
    | nil => exact ⟨[], rfl, rfl⟩
    | cons p ps => simp at h
  | cons m ms ih =>
    intro ps h
    cases ps with
    | nil => simp at h
    | cons p ps =>
      obtain ⟨qs, h1, h2⟩ := ih ps (by simpa using h)
      refine ⟨_, by rw [List.map_cons]; show (spendAll ps (ms.map some)).map _ = _; rw [h1]; rfl, by
        rw [List.length_cons, h2, List.length_cons]⟩

theorem single_length (gas : Nat) (ps : List Parsed) : (single gas ps).length = ps.length := by
  match ps with
  | [] => rfl
  | [_] => rfl
  | _ :: _ :: _ => rfl

theorem parse_spent (idx gas : Nat) (t : Tx) (hm : t.msgs = t.eths.map some) :
    ∃ qs, parse ⟨11, true, gas, anteEvents idx t.eths⟩ t = some qs := by
  obtain ⟨f', _, _, h3⟩ := readAll_ante t.eths none 0 [] idx (.inl rfl)
  unfold parse
  dsimp only
  rw [h3]
  dsimp only
  rw [if_pos (by decide), hm]
  obtain ⟨qs, h, _⟩ := spendAll_some t.eths (single gas ([] ++ firsts idx t.eths))
    (by rw [single_length, List.nil_append, firsts_length])
  exact ⟨qs, h⟩

theorem counts_zero (g : Nat) (es : List Event) : ¬ counts ⟨0, false, g, es⟩ = false := fun h => nomatch h

theorem counts_known (g : Nat) (es : List Event) : ¬ counts ⟨11, true, g, es⟩ = false := fun h => nomatch h

/-! ## The loop over a block -/

/-- The saves of a list of places. -/
def saveAll (height : Nat) : DB → Nat → List Place → DB
  | db, _, [] => db
  | db, n, p :: ps => saveAll height (save db p.m.hash (record height n p)) (n + 1) ps

theorem saveAll_append (height : Nat) (ps qs : List Place) : ∀ (db : DB) (n : Nat),
    saveAll height db n (ps ++ qs) = saveAll height (saveAll height db n ps) (n + ps.length) qs := by
  induction ps with
  | nil => intro db n; rfl
  | cons p ps ih =>
    intro db n
    show saveAll height _ (n + 1) (ps ++ qs) = _
    rw [ih, List.length_cons, show n + 1 + ps.length = n + (ps.length + 1) by omega]; rfl

theorem indexMsgs_ok (height i : Nat) (r : Result) (hr : r.code = 0) (parsed : List Parsed) (ms : List Msg) :
    ∀ (db : DB) (eth cum j : Nat),
    (∀ k m, ms[k]? = some m → ∃ q : Parsed, parsed[j + k]? = some q ∧ q.used = m.used ∧
      q.failed = decide (m.error ≠ [])) →
    indexMsgs height i r parsed db eth cum j (ms.map some)
      = some (saveAll height db eth (placesIn i true j cum ms), eth + ms.length) := by
  induction ms with
  | nil => intro db eth cum j _; rfl
  | cons m ms ih =>
    intro db eth cum j h
    obtain ⟨q, h1, h2, h3⟩ := h 0 m rfl
    have ho : outcome r parsed j m = some (m.used, decide (m.error ≠ [])) := by
      unfold outcome
      rw [if_neg (by rw [hr]; decide)]
      rw [Nat.add_zero] at h1
      rw [h1]; dsimp only; rw [h2, h3]
    rw [List.map_cons]
    unfold indexMsgs
    rw [ho]
    dsimp only
    rw [ih _ (eth + 1) (cum + m.used) (j + 1) (fun k m' hk => by
      rw [show j + 1 + k = j + (k + 1) by omega]
      exact h (k + 1) m' (by rw [List.getElem?_cons_succ]; exact hk))]
    rw [List.length_cons, show eth + 1 + ms.length = eth + (ms.length + 1) by omega]
    rfl

theorem indexMsgs_spent (height i : Nat) (r : Result) (hr : r.code ≠ 0) (parsed : List Parsed) (ms : List Msg) :
    ∀ (db : DB) (eth cum j : Nat),
    indexMsgs height i r parsed db eth cum j (ms.map some)
      = some (saveAll height db eth (placesIn i false j cum ms), eth + ms.length) := by
  induction ms with
  | nil => intro db eth cum j; rfl
  | cons m ms ih =>
    intro db eth cum j
    have ho : outcome r parsed j m = some (m.gas, true) := by
      unfold outcome
      rw [if_pos hr]
    rw [List.map_cons]
    unfold indexMsgs
    rw [ho]
    dsimp only
    rw [ih, List.length_cons, show eth + 1 + ms.length = eth + (ms.length + 1) by omega]
    rfl

theorem placesIn_length (i : Nat) (o : Bool) (ms : List Msg) : ∀ j b, (placesIn i o j b ms).length = ms.length := by
  induction ms with
  | nil => intro _ _; rfl
  | cons m ms ih => intro j b; simp only [placesIn, List.length_cons, ih]

/-- The index of a block holds its places, in their order. -/
theorem indexTxs_exec (height : Nat) (ss : List Step) : ∀ (db : DB) (idx eth i : Nat), (∀ s ∈ ss, Sound s) →
    indexTxs height db eth i (execBlock idx ss) = some (saveAll height db eth (places i ss)) := by
  induction ss with
  | nil => intro db idx eth i _; rfl
  | cons s ss ih =>
    intro db idx eth i hs
    have hss : ∀ s' ∈ ss, Sound s' := fun s' h => hs s' (.tail _ h)
    unfold execBlock indexTxs
    unfold places
    cases hf : s.fate with
    | refused a =>
      have hc : counts (exec idx s).1 = false := by unfold exec; rw [hf]; rfl
      rw [if_pos hc]
      dsimp only
      rw [List.nil_append]
      exact ih _ _ _ _ hss
    | ok =>
      rcases hs s (.head _) with ⟨a, ha⟩ | ⟨hd, ⟨he, hm, hg⟩ | ⟨he, hn⟩⟩
      · rw [hf] at ha; cases ha
      · have hx : exec idx s = (⟨0, false, s.gas, anteEvents idx s.tx.eths ++ msgEvents idx s.tx.eths⟩,
            idx + s.tx.eths.length) := by unfold exec; rw [hf]; dsimp only; rw [if_pos he]
        rw [hx]
        dsimp only
        rw [if_neg (counts_zero _ _), if_neg (by rw [hd]; decide), if_neg (by rw [he]; decide),
          parse_ok idx s.gas s.tx (hg hf)]
        dsimp only
        rw [hm, indexMsgs_ok height i _ rfl (seconds idx s.tx.eths) s.tx.eths db eth 0 0
          (fun k m hk => ⟨_, by rw [Nat.zero_add]; exact seconds_get s.tx.eths idx k m hk, rfl, rfl⟩)]
        dsimp only
        rw [ih _ _ _ _ hss, saveAll_append, placesIn_length]
      · have hx : exec idx s = (⟨0, false, s.gas, [.other]⟩, idx) := by
          unfold exec; rw [hf]; dsimp only; rw [if_neg (by rw [he]; decide)]
        rw [hx]
        dsimp only
        rw [if_neg (counts_zero _ _), if_neg (by rw [hd]; decide), if_pos he, hn]
        exact ih _ _ _ _ hss
    | spent =>
      rcases hs s (.head _) with ⟨a, ha⟩ | ⟨hd, ⟨he, hm, hg⟩ | ⟨he, hn⟩⟩
      · rw [hf] at ha; cases ha
      · have hx : exec idx s = (⟨11, true, s.gas, anteEvents idx s.tx.eths⟩, idx) := by
          unfold exec; rw [hf]; dsimp only; rw [if_pos he]
        rw [hx]
        dsimp only
        obtain ⟨qs, hq⟩ := parse_spent idx s.gas s.tx hm
        rw [if_neg (counts_known _ _), if_neg (by rw [hd]; decide), if_neg (by rw [he]; decide), hq]
        dsimp only
        rw [hm, indexMsgs_spent height i _ (show (11 : Nat) ≠ 0 by decide) qs s.tx.eths db eth 0 0]
        dsimp only
        rw [ih _ _ _ _ hss, saveAll_append, placesIn_length]
      · have hx : exec idx s = (⟨11, true, s.gas, [.other]⟩, idx) := by
          unfold exec; rw [hf]; dsimp only; rw [if_neg (by rw [he]; decide)]
        rw [hx]
        dsimp only
        rw [if_neg (counts_known _ _), if_neg (by rw [hd]; decide), if_pos he, hn]
        exact ih _ _ _ _ hss

theorem indexBlock_exec (db : DB) (height : Nat) (ss : List Step) (hs : ∀ s ∈ ss, Sound s) :
    indexBlock db height (execBlock 0 ss) = some (saveAll height db 0 (places 0 ss)) :=
  indexTxs_exec height ss db 0 0 0 hs

/-! ## The listing -/

theorem placesIn_msgs (i : Nat) (o : Bool) (ms : List Msg) : ∀ j b, (placesIn i o j b ms).map (·.m) = ms := by
  induction ms with
  | nil => intro _ _; rfl
  | cons m ms ih => intro j b; simp only [placesIn, List.map_cons, ih]

theorem listing_exec (ss : List Step) : ∀ (idx i : Nat), (∀ s ∈ ss, Sound s) →
    listing (execBlock idx ss) = (places i ss).map (·.m) := by
  induction ss with
  | nil => intro _ _ _; rfl
  | cons s ss ih =>
    intro idx i hs
    have hss : ∀ s' ∈ ss, Sound s' := fun s' h => hs s' (.tail _ h)
    unfold execBlock listing places
    rw [List.map_append]
    have hdec : s.fate ≠ .refused true → s.fate ≠ .refused false → s.tx.decodes = true := by
      intro h1 h2
      rcases hs s (.head _) with ⟨a, ha⟩ | ⟨hd, _⟩
      · cases a
        · exact absurd ha h2
        · exact absurd ha h1
      · exact hd
    cases hf : s.fate with
    | refused a =>
      have hc : counts (exec idx s).1 = false := by unfold exec; rw [hf]; rfl
      rw [if_pos hc]
      exact ih _ _ hss
    | ok =>
      have hc : counts (exec idx s).1 = true := by unfold exec; rw [hf]; dsimp only; split <;> rfl
      have hd := hdec (by rw [hf]; exact fun h => nomatch h) (by rw [hf]; exact fun h => nomatch h)
      rw [if_neg (by rw [hc]; decide), if_neg (by rw [hd]; decide)]
      dsimp only
      rw [placesIn_msgs, ih _ (i + 1) hss]
    | spent =>
      have hc : counts (exec idx s).1 = true := by unfold exec; rw [hf]; rfl
      have hd := hdec (by rw [hf]; exact fun h => nomatch h) (by rw [hf]; exact fun h => nomatch h)
      rw [if_neg (by rw [hc]; decide), if_neg (by rw [hd]; decide)]
      dsimp only
      rw [placesIn_msgs, ih _ (i + 1) hss]

/-! ## The places are in the block -/

theorem placesIn_get (i : Nat) (o : Bool) (ms : List Msg) : ∀ (j b k : Nat) (p : Place),
    (placesIn i o j b ms)[k]? = some p → p.tx = i ∧ p.msg = j + k ∧ ms[k]? = some p.m ∧ p.ran = o := by
  induction ms with
  | nil => intro _ _ k p h; simp [placesIn] at h
  | cons m ms ih =>
    intro j b k p h
    cases k with
    | zero =>
      simp only [placesIn, List.getElem?_cons_zero, Option.some.injEq] at h
      subst h; exact ⟨rfl, rfl, rfl, rfl⟩
    | succ k =>
      simp only [placesIn, List.getElem?_cons_succ] at h
      obtain ⟨h1, h2, h3, h4⟩ := ih _ _ _ _ h
      exact ⟨h1, by omega, by rw [List.getElem?_cons_succ]; exact h3, h4⟩

/-- A place of the block is where it says. -/
theorem places_at (ss : List Step) : ∀ (i k : Nat) (p : Place), (places i ss)[k]? = some p →
    i ≤ p.tx ∧ ∃ s, ss[p.tx - i]? = some s ∧ s.tx.eths[p.msg]? = some p.m ∧
      (p.ran = true ↔ s.fate = .ok) ∧ (∀ a, s.fate ≠ .refused a) := by
  induction ss with
  | nil => intro i k p h; simp [places] at h
  | cons s ss ih =>
    intro i k p h
    have key : ∀ (o : Bool), (placesIn i o 0 0 s.tx.eths ++ places (i + 1) ss)[k]? = some p →
        (o = true ↔ s.fate = .ok) → (∀ a, s.fate ≠ .refused a) →
        i ≤ p.tx ∧ ∃ s', (s :: ss)[p.tx - i]? = some s' ∧ s'.tx.eths[p.msg]? = some p.m ∧
        (p.ran = true ↔ s'.fate = .ok) ∧ (∀ a, s'.fate ≠ .refused a) := by
      intro o h ho hr
      rw [List.getElem?_append] at h
      split at h
      · obtain ⟨h1, h2, h3, h4⟩ := placesIn_get i o s.tx.eths 0 0 k p h
        refine ⟨by omega, s, by rw [h1, Nat.sub_self]; rfl, by rw [h2, Nat.zero_add]; exact h3, by rw [h4]; exact ho, hr⟩
      · obtain ⟨h1, s', h2, h3⟩ := ih (i + 1) _ p h
        refine ⟨by omega, s', ?_, h3⟩
        rw [show p.tx - i = (p.tx - (i + 1)) + 1 by omega, List.getElem?_cons_succ]; exact h2
    unfold places at h
    cases hf : s.fate with
    | ok => rw [hf] at h; exact key true h ⟨fun _ => hf, fun _ => rfl⟩ (by rw [hf]; exact fun _ e => nomatch e)
    | spent =>
      rw [hf] at h
      exact key false h ⟨(fun e => nomatch e), (by rw [hf]; exact fun e => nomatch e)⟩ (by rw [hf]; exact fun _ e => nomatch e)
    | refused a =>
      rw [hf] at h
      dsimp only at h
      rw [List.nil_append] at h
      obtain ⟨h1, s', h2, h3⟩ := ih (i + 1) _ p h
      refine ⟨by omega, s', ?_, h3⟩
      rw [show p.tx - i = (p.tx - (i + 1)) + 1 by omega, List.getElem?_cons_succ]; exact h2

theorem execBlock_get (ss : List Step) : ∀ (idx n : Nat) (s : Step), ss[n]? = some s →
    ∃ idx', (execBlock idx ss)[n]? = some (s.tx, (exec idx' s).1) := by
  induction ss with
  | nil => intro _ n s h; simp at h
  | cons a ss ih =>
    intro idx n s h
    cases n with
    | zero => simp only [List.getElem?_cons_zero, Option.some.injEq] at h; subst h; exact ⟨idx, rfl⟩
    | succ n =>
      rw [List.getElem?_cons_succ] at h
      obtain ⟨idx', h'⟩ := ih (exec idx a).2 n s h
      exact ⟨idx', by unfold execBlock; rw [List.getElem?_cons_succ]; exact h'⟩

/-- The message of a place is at its place of the executed block. -/
theorem msgAt_place (ss : List Step) (hs : ∀ s ∈ ss, Sound s) (k : Nat) (p : Place)
    (h : (places 0 ss)[k]? = some p) : msgAt (execBlock 0 ss) p.tx p.msg = some p.m := by
  obtain ⟨_, s, h1, h2, _, h4⟩ := places_at ss 0 k p h
  rw [Nat.sub_zero] at h1
  obtain ⟨idx', h5⟩ := execBlock_get ss 0 p.tx s h1
  have hm : s.tx.msgs[p.msg]? = some (some p.m) := by
    rcases hs s (List.mem_of_getElem? h1) with ⟨a, ha⟩ | ⟨_, ⟨_, hm, _⟩ | ⟨_, hn⟩⟩
    · exact absurd ha (h4 a)
    · rw [hm, List.getElem?_map, h2]; rfl
    · rw [hn] at h2; simp at h2
  unfold msgAt
  rw [h5]
  dsimp only
  rw [hm]

end EthIndex
