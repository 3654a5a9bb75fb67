import Verif.Rpc.IndexLemmas2
/-!
# Lemmas on the index: the service, and look-ups by events
-/

namespace EthIndex

/-! ## What the database holds -/

/-- The database holds the blocks after `lo` and up to `hi`. -/
def Content (chain : Nat → List Step) (db : DB) (lo hi : Nat) : Prop :=
  Shaped db ∧
  (∀ h i, h < 256 ^ 8 → i < 256 ^ 8 → KV.get db (indexKey h i)
    = if lo < h ∧ h ≤ hi then ((places 0 (chain h))[i]?).map (fun p => .hash p.m.hash) else none) ∧
  (∀ x v, x < 256 ^ 32 → (KV.get db (hashKey x) = some v ↔ ∃ (h k : Nat) (p : Place), lo < h ∧ h ≤ hi ∧
    (places 0 (chain h))[k]? = some p ∧ p.m.hash = x ∧ v = .entry (record h k p)))

theorem content_nil (chain : Nat → List Step) (lo : Nat) : Content chain [] lo lo := by
  refine ⟨fun e h => (List.not_mem_nil h).elim, fun h i _ _ => ?_, fun x v _ => ⟨(fun h => nomatch h), ?_⟩⟩
  · rw [if_neg (by omega)]; rfl
  · intro ⟨h, _, _, h1, h2, _⟩; omega

theorem length_of_get {l : List Place} {k : Nat} {p : Place} (h : l[k]? = some p) : k < l.length := by
  rw [List.getElem?_eq_some_iff] at h; exact h.1

theorem content_next {chain : Nat → List Step} {db : DB} {lo hi : Nat} (hc : Content chain db lo hi)
    (hle : lo ≤ hi) (hf : ∀ h, Fits (chain h)) (hu : Unique chain) (hb : hi + 1 < 256 ^ 8) :
    Content chain (saveAll (hi + 1) db 0 (places 0 (chain (hi + 1)))) lo (hi + 1) := by
  obtain ⟨h1, h2, h3⟩ := hc
  obtain ⟨_, hlen, hhash⟩ := hf (hi + 1)
  refine ⟨shaped_saveAll _ hb _ _ _ (by omega) h1, fun h i hh hi' => ?_, fun x v hx => ?_⟩
  · rw [saveAll_index (hi + 1) hb _ db 0 (by omega) h i hh hi']
    by_cases e : h = hi + 1
    · subst e
      rw [if_pos (c := lo < hi + 1 ∧ hi + 1 ≤ hi + 1) (by omega)]
      by_cases hi2 : i < (places 0 (chain (hi + 1))).length
      · rw [if_pos (by omega), Nat.sub_zero]
      · rw [if_neg (by omega), h2 (hi + 1) i hb hi', if_neg (by omega),
          List.getElem?_eq_none (by omega)]; rfl
    · rw [if_neg (by omega), h2 h i hh hi']
      by_cases hr : lo < h ∧ h ≤ hi
      · rw [if_pos hr, if_pos (by omega)]
      · rw [if_neg hr, if_neg (by omega)]
  · by_cases hin : ∃ p ∈ places 0 (chain (hi + 1)), p.m.hash = x
    · obtain ⟨p, hp, he⟩ := hin
      obtain ⟨k, hk⟩ := List.mem_iff_getElem?.1 hp
      have hg := saveAll_hash (hi + 1) _ db 0 k p hhash hk
        (fun k' q hq e => (hu _ _ _ _ _ _ hq hk e).2)
      rw [he, Nat.zero_add] at hg
      rw [hg]
      constructor
      · intro hv
        cases hv
        exact ⟨hi + 1, k, p, by omega, by omega, hk, he, rfl⟩
      · intro ⟨h, k', q, _, _, hq, hqx, hv⟩
        obtain ⟨e1, e2⟩ := hu _ _ _ _ _ _ hk hq (by rw [he, hqx])
        subst e1; subst e2
        rw [hq] at hk
        cases hk
        rw [hv]
    · rw [saveAll_hash_other (hi + 1) _ db 0 x hx hhash (fun p hp e => hin ⟨p, hp, e⟩), h3 x v hx]
      constructor
      · intro ⟨h, k, p, a, b, c⟩; exact ⟨h, k, p, a, by omega, c⟩
      · intro ⟨h, k, p, a, b, c, d, e⟩
        refine ⟨h, k, p, a, ?_, c, d, e⟩
        by_cases e' : h = hi + 1
        · subst e'; exact absurd ⟨p, List.mem_of_getElem? c, d⟩ hin
        · omega

/-- Blocks without Ethereum transactions need not be counted. -/
theorem content_shrink {chain : Nat → List Step} {db : DB} {lo hi hi' : Nat} (hc : Content chain db lo hi)
    (hle : hi' ≤ hi) (he : ∀ h, hi' < h → h ≤ hi → places 0 (chain h) = []) : Content chain db lo hi' := by
  obtain ⟨h1, h2, h3⟩ := hc
  refine ⟨h1, fun h i hh hi2 => ?_, fun x v hx => ?_⟩
  · rw [h2 h i hh hi2]
    by_cases hr : lo < h ∧ h ≤ hi
    · rw [if_pos hr]
      by_cases hr' : h ≤ hi'
      · rw [if_pos ⟨hr.1, hr'⟩]
      · rw [if_neg (by omega), he h (by omega) hr.2]; rfl
    · rw [if_neg hr, if_neg (by omega)]
  · rw [h3 x v hx]
    constructor
    · intro ⟨h, k, p, a, b, c, d⟩
      refine ⟨h, k, p, a, ?_, c, d⟩
      by_cases hr' : h ≤ hi'
      · exact hr'
      · rw [he h (by omega) b] at c; simp at c
    · intro ⟨h, k, p, a, b, c⟩; exact ⟨h, k, p, a, by omega, c⟩

theorem content_last {chain : Nat → List Step} {db : DB} {lo hi h : Nat} (hc : Content chain db lo hi)
    (hb : hi < 256 ^ 8) (hl : lastBlock db = some h) :
    lo < h ∧ h ≤ hi ∧ Content chain db lo h := by
  obtain ⟨hh, ⟨i, hi', hg⟩, hmax⟩ := lastBlock_some hc.1 hl
  have hr : lo < h ∧ h ≤ hi := by
    have := hc.2.1 h i hh hi'
    by_cases hr : lo < h ∧ h ≤ hi
    · exact hr
    · rw [if_neg hr] at this; exact absurd this hg
  refine ⟨hr.1, hr.2, content_shrink hc hr.2 fun h' h1 h2 => ?_⟩
  cases hp : places 0 (chain h') with
  | nil => rfl
  | cons p ps =>
    have h0 := hmax h' 0 h1 (by omega)
    rw [hc.2.1 h' 0 (by omega) (by omega), if_pos (by omega), hp] at h0
    cases h0

/-! ## Exactness -/

theorem exact_of_content {chain : Nat → List Step} {db : DB} {lo hi : Nat} (hc : Content chain db lo hi)
    (hf : ∀ h, Fits (chain h)) (hb : hi < 256 ^ 8) : Exact chain db lo hi := by
  obtain ⟨_, h2, h3⟩ := hc
  have hby : ∀ (h k : Nat) (p : Place), lo < h → h ≤ hi → (places 0 (chain h))[k]? = some p →
      byHash db p.m.hash = some (record h k p) := by
    intro h k p a b c
    have hx := (hf h).2.2 p (List.mem_of_getElem? c)
    unfold byHash
    rw [(h3 _ (.entry (record h k p)) hx).2 ⟨h, k, p, a, b, c, rfl, rfl⟩]
  refine ⟨fun h k p a b c => ⟨hby h k p a b c, ?_⟩, fun x r hx hr => ?_, fun h k r hh hk hr => ?_⟩
  · have hk := length_of_get c
    have hlen := (hf h).2.1
    unfold byIndex
    rw [h2 h k (by omega) (by omega), if_pos ⟨a, b⟩, c]
    exact hby h k p a b c
  · unfold byHash at hr
    cases hg : KV.get db (hashKey x) with
    | none => rw [hg] at hr; cases hr
    | some v =>
      rw [hg] at hr
      obtain ⟨h, k, p, a, b, c, d, e⟩ := (h3 x v hx).1 hg
      subst e
      cases hr
      exact ⟨h, k, p, a, b, c, d, rfl⟩
  · unfold byIndex at hr
    rw [h2 h k hh hk] at hr
    by_cases hrange : lo < h ∧ h ≤ hi
    · rw [if_pos hrange] at hr
      cases hp : (places 0 (chain h))[k]? with
      | none => rw [hp] at hr; cases hr
      | some p =>
        rw [hp] at hr
        have hr' : byHash db p.m.hash = some r := hr
        rw [hby h k p hrange.1 hrange.2 hp] at hr'
        cases hr'
        exact ⟨p, hrange.1, hrange.2, rfl, rfl⟩
    · rw [if_neg hrange] at hr; cases hr

/-! ## The service -/

/-- The invariant of the service. -/
def Inv (chain : Nat → List Step) (lo : Nat) (s : Service) : Prop :=
  lo ≤ s.last ∧ s.last < 2 ^ 63 ∧ s.latest < 2 ^ 63 ∧ Content chain s.db lo s.last

theorem inv_step {chain : Nat → List Step} {lo : Nat} {s : Service} (hf : ∀ h, Fits (chain h)) (hu : Unique chain)
    (hi : Inv chain lo s) (op : Op)
    (hop : match op with
      | .header h => h < 2 ^ 63
      | .next written => written = true
      | .restart latest => latest < 2 ^ 63 ∧ (lastBlock s.db ≠ none ∨ latest = s.last)) :
    Inv chain lo (serve (ran chain) s op) := by
  obtain ⟨h1, h2, h3, h4⟩ := hi
  cases op with
  | header h =>
    refine ⟨h1, h2, ?_, h4⟩
    show (if s.latest < h then h else s.latest) < 2 ^ 63
    split
    · exact hop
    · exact h3
  | next w =>
    have hw : w = true := hop
    subst hw
    unfold serve
    dsimp only
    by_cases hle : s.latest ≤ s.last
    · rw [if_pos hle]; exact ⟨h1, h2, h3, h4⟩
    · rw [if_neg hle, if_pos rfl]
      have hx : indexBlock s.db (s.last + 1) (ran chain (s.last + 1))
          = some (saveAll (s.last + 1) s.db 0 (places 0 (chain (s.last + 1)))) :=
        indexBlock_exec _ _ _ (hf _).1
      rw [hx]
      dsimp only
      exact ⟨by show lo ≤ s.last + 1; omega, by show s.last + 1 < 2 ^ 63; omega, h3,
        content_next h4 h1 hf hu (by omega)⟩
  | restart latest =>
    obtain ⟨hl, hr⟩ := hop
    unfold serve start
    cases hlb : lastBlock s.db with
    | none =>
      rcases hr with hr | hr
      · exact absurd hlb hr
      · subst hr
        exact ⟨h1, hl, hl, h4⟩
    | some h =>
      obtain ⟨a, b, c⟩ := content_last h4 (by omega) hlb
      exact ⟨by show lo ≤ h; omega, by show h < 2 ^ 63; omega, hl, c⟩

theorem inv_all {chain : Nat → List Step} {lo : Nat} (hf : ∀ h, Fits (chain h)) (hu : Unique chain) (ops : List Op) :
    ∀ s, Inv chain lo s → Calm chain s ops → Inv chain lo (serveAll (ran chain) s ops) := by
  induction ops with
  | nil => intro s hi _; exact hi
  | cons op ops ih =>
    intro s hi hc
    obtain ⟨h1, h2⟩ := hc
    exact ih _ (inv_step hf hu hi op h1) h2

/-! ## Blocks that are never gone back to -/

/-- A block is not in the index, and a later one is. -/
def Lost (h0 : Nat) (s : Service) : Prop :=
  Shaped s.db ∧ h0 ≤ s.last ∧ s.last < 2 ^ 63 ∧ s.latest < 2 ^ 63 ∧
    (∃ h, lastBlock s.db = some h ∧ h0 < h ∧ h < 2 ^ 63) ∧
    ∀ i, i < 256 ^ 8 → KV.get s.db (indexKey h0 i) = none

/-- The heights in an operation fit. -/
def Small : Op → Prop
  | .header h => h < 2 ^ 63
  | .next _ => True
  | .restart h => h < 2 ^ 63

theorem lost_step {chain : Nat → List Step} (hf : ∀ h, Fits (chain h)) {h0 : Nat} {s : Service} (hl : Lost h0 s)
    (op : Op) (hop : Small op) : Lost h0 (serve (ran chain) s op) := by
  obtain ⟨h1, h2, h3, h4, ⟨hb, h5, h6, h8⟩, h7⟩ := hl
  cases op with
  | header h =>
    refine ⟨h1, h2, h3, ?_, ⟨hb, h5, h6, h8⟩, h7⟩
    show (if s.latest < h then h else s.latest) < 2 ^ 63
    split
    · exact hop
    · exact h4
  | restart l =>
    unfold serve start
    rw [h5]
    exact ⟨h1, by show h0 ≤ hb; omega, h8, hop, ⟨hb, h5, h6, h8⟩, h7⟩
  | next w =>
    unfold serve
    dsimp only
    by_cases hle : s.latest ≤ s.last
    · rw [if_pos hle]; exact ⟨h1, h2, h3, h4, ⟨hb, h5, h6, h8⟩, h7⟩
    · rw [if_neg hle]
      cases w with
      | false =>
        rw [if_neg (by decide)]
        exact ⟨h1, by show h0 ≤ s.last + 1; omega, by show s.last + 1 < 2 ^ 63; omega, h4, ⟨hb, h5, h6, h8⟩, h7⟩
      | true =>
        rw [if_pos rfl]
        have hx : indexBlock s.db (s.last + 1) (ran chain (s.last + 1))
            = some (saveAll (s.last + 1) s.db 0 (places 0 (chain (s.last + 1)))) :=
          indexBlock_exec _ _ _ (hf _).1
        rw [hx]
        dsimp only
        have hlen := (hf (s.last + 1)).2.1
        have hsh := shaped_saveAll (s.last + 1) (by omega) (places 0 (chain (s.last + 1))) s.db 0 (by omega) h1
        have hidx := saveAll_index (s.last + 1) (by omega) (places 0 (chain (s.last + 1))) s.db 0 (by omega)
        obtain ⟨hbb, ⟨i, hi, hg⟩, hmax⟩ := lastBlock_some h1 h5
        have hg' : KV.get (saveAll (s.last + 1) s.db 0 (places 0 (chain (s.last + 1)))) (indexKey hb i) ≠ none := by
          rw [hidx hb i hbb hi]
          split
          · rename_i hc
            rw [List.getElem?_eq_getElem (by omega)]
            exact fun e => nomatch e
          · exact hg
        refine ⟨hsh, by show h0 ≤ s.last + 1; omega, by show s.last + 1 < 2 ^ 63; omega, h4, ?_, fun j hj => ?_⟩
        · cases hl' : lastBlock (saveAll (s.last + 1) s.db 0 (places 0 (chain (s.last + 1)))) with
          | none => exact absurd ((lastBlock_none hsh).1 hl' hb i hbb) hg'
          | some h' =>
            obtain ⟨hb', ⟨i', hi', hgi⟩, hmax'⟩ := lastBlock_some hsh hl'
            refine ⟨h', rfl, ?_, ?_⟩
            · by_cases hlt : h' < hb
              · exact absurd (hmax' hb i hlt hbb) hg'
              · omega
            · rw [hidx h' i' hb' hi'] at hgi
              split at hgi
              · omega
              · by_cases hlt : hb < h'
                · exact absurd (hmax h' i' hlt hb') hgi
                · omega
        · show KV.get (saveAll (s.last + 1) s.db 0 (places 0 (chain (s.last + 1)))) (indexKey h0 j) = none
          rw [hidx h0 j (by omega) hj, if_neg (by omega)]
          exact h7 j hj

theorem lost_all {chain : Nat → List Step} (hf : ∀ h, Fits (chain h)) {h0 : Nat} (ops : List Op) :
    ∀ s, Lost h0 s → (∀ op ∈ ops, Small op) → Lost h0 (serveAll (ran chain) s ops) := by
  induction ops with
  | nil => intro s hl _; exact hl
  | cons op ops ih =>
    intro s hl hs
    exact ih _ (lost_step hf hl op (hs op (.head _))) (fun o ho => hs o (.tail _ ho))

/-! ## Look-ups by events -/

theorem mem_anteEvents (ms : List Msg) : ∀ (idx : Nat) (e : Event), e ∈ anteEvents idx ms →
    ∃ j m, j < ms.length ∧ e = .eth [.hash m, .index (idx + j)] := by
  induction ms with
  | nil => intro idx e h; exact (List.not_mem_nil h).elim
  | cons m ms ih =>
    intro idx e h
    rcases List.mem_cons.1 h with rfl | h'
    · exact ⟨0, m.hash, by simp, rfl⟩
    · obtain ⟨j, x, hj, he⟩ := ih (idx + 1) e h'
      exact ⟨j + 1, x, by simpa using hj, by rw [he, show idx + 1 + j = idx + (j + 1) by omega]⟩

theorem mem_msgEvents (ms : List Msg) : ∀ (idx : Nat) (as : List Attr), .eth as ∈ msgEvents idx ms →
    ∃ j m, j < ms.length ∧ as = msgAttrs (idx + j) m := by
  induction ms with
  | nil => intro idx as h; exact (List.not_mem_nil h).elim
  | cons m ms ih =>
    intro idx as h
    unfold msgEvents at h
    rcases List.mem_cons.1 h with h' | h'
    · cases h'; exact ⟨0, m, by simp, rfl⟩
    · rcases List.mem_cons.1 h' with h' | h'
      · cases h'
      · rcases List.mem_cons.1 h' with h' | h'
        · cases h'
        · obtain ⟨j, x, hj, he⟩ := ih (idx + 1) as h'
          exact ⟨j + 1, x, by simpa using hj, by rw [he, show idx + 1 + j = idx + (j + 1) by omega]⟩

theorem index_of_msgAttrs {i n : Nat} {m : Msg} (h : Attr.index i ∈ msgAttrs n m) : i = n := by
  unfold msgAttrs at h
  simp only [List.mem_append, List.mem_cons, List.not_mem_nil, or_false] at h
  rcases h with (h | h) | h
  · rcases h with h | h | h | h | h <;> first | (cases h; done) | (cases h; rfl)
  · split at h
    · exact (List.not_mem_nil h).elim
    · rcases List.mem_cons.1 h with h | h
      · cases h
      · exact (List.not_mem_nil h).elim
  · split at h
    · rcases List.mem_cons.1 h with h | h
      · cases h
      · exact (List.not_mem_nil h).elim
    · exact (List.not_mem_nil h).elim

theorem hasIndex_ok {idx i : Nat} {ms : List Msg} {g : Nat}
    (h : hasIndex ⟨0, false, g, anteEvents idx ms ++ msgEvents idx ms⟩ i = true) : idx ≤ i ∧ i - idx < ms.length := by
  unfold hasIndex at h
  rw [List.any_eq_true] at h
  obtain ⟨e, he, hx⟩ := h
  rcases List.mem_append.1 he with he | he
  · obtain ⟨j, m, hj, rfl⟩ := mem_anteEvents ms idx e he
    have hx' := of_decide_eq_true hx
    rcases List.mem_cons.1 hx' with h1 | h1
    · cases h1
    · rcases List.mem_cons.1 h1 with h1 | h1
      · cases h1; omega
      · exact (List.not_mem_nil h1).elim
  · cases e with
    | log l => cases hx
    | other => cases hx
    | eth as =>
      obtain ⟨j, m, hj, rfl⟩ := mem_msgEvents ms idx as he
      have := index_of_msgAttrs (of_decide_eq_true hx)
      omega

theorem msgOfIndex_seconds (idx i : Nat) (ms : List Msg) (h1 : idx ≤ i) (h2 : i - idx < ms.length) :
    msgOfIndex (seconds idx ms) i = some (i - idx) := by
  cases ms with
  | nil => simp at h2
  | cons m ms =>
    unfold msgOfIndex seconds
    dsimp only
    rw [if_pos ⟨h1, by rw [List.length_cons, seconds_length]; simpa using h2⟩]

theorem listing_cons (idx : Nat) (s : Step) (ss : List Step) : listing (execBlock idx (s :: ss))
    = (if counts (exec idx s).1 = false ∨ s.tx.decodes = false then [] else s.tx.eths)
      ++ listing (execBlock (exec idx s).2 ss) := by
  show (if counts (exec idx s).1 = false then listing (execBlock (exec idx s).2 ss)
    else if s.tx.decodes = false then listing (execBlock (exec idx s).2 ss)
    else s.tx.eths ++ listing (execBlock (exec idx s).2 ss)) = _
  generalize listing (execBlock (exec idx s).2 ss) = l
  by_cases h1 : counts (exec idx s).1 = false
  · rw [if_pos h1, if_pos (.inl h1)]; rfl
  · rw [if_neg h1]
    by_cases h2 : s.tx.decodes = false
    · rw [if_pos h2, if_pos (.inr h2)]; rfl
    · rw [if_neg h2, if_neg (not_or.2 ⟨h1, h2⟩)]

/-- What a look-up by events finds in a block none of whose Ethereum transactions has failed after
counting. -/
theorem search_exec (ss : List Step) : ∀ (idx k0 i k : Nat) (t : Tx) (r : Result),
    (∀ s ∈ ss, Sound s) → (∀ s ∈ ss, s.fate = .spent → s.tx.ext = false) →
    search (hasIndex · i) k0 (execBlock idx ss) = some (k, t, r) → counts r = true →
    ∃ (ps : List Parsed) (j : Nat) (m : Msg), parse r t = some ps ∧ msgOfIndex ps i = some j ∧ k0 ≤ k ∧ idx ≤ i ∧
      (execBlock idx ss)[k - k0]? = some (t, r) ∧ t.msgs[j]? = some (some m) ∧
      (listing (execBlock idx ss))[i - idx]? = some m := by
  induction ss with
  | nil => intro idx k0 i k t r _ _ h; cases h
  | cons s ss ih =>
    intro idx k0 i k t r hs hn h hc
    have hss : ∀ s' ∈ ss, Sound s' := fun s' h => hs s' (.tail _ h)
    have hnn : ∀ s' ∈ ss, s'.fate = .spent → s'.tx.ext = false := fun s' h => hn s' (.tail _ h)
    unfold execBlock search at h
    by_cases hq : hasIndex (exec idx s).1 i = true
    · rw [if_pos hq] at h
      cases h
      have hok : s.fate = .ok ∧ s.tx.ext = true := by
        cases hf : s.fate with
        | ok =>
          cases he : s.tx.ext with
          | true => exact ⟨rfl, rfl⟩
          | false =>
            unfold exec at hq
            rw [hf] at hq
            dsimp only at hq
            rw [if_neg (by rw [he]; decide)] at hq
            cases hq
        | spent =>
          unfold exec at hq
          rw [hf] at hq
          dsimp only at hq
          rw [if_neg (by rw [hn s (.head _) hf]; decide)] at hq
          cases hq
        | refused a =>
          unfold exec at hc
          rw [hf] at hc
          cases hc
      obtain ⟨hf, he⟩ := hok
      have hx : exec idx s = (⟨0, false, s.gas, anteEvents idx s.tx.eths ++ msgEvents idx s.tx.eths⟩,
          idx + s.tx.eths.length) := by unfold exec; rw [hf]; dsimp only; rw [if_pos he]
      rw [hx] at hq
      obtain ⟨h1, h2⟩ := hasIndex_ok hq
      rcases hs s (.head _) with ⟨a, ha⟩ | ⟨hd, ⟨_, hm, hg⟩ | ⟨he', _⟩⟩
      · rw [hf] at ha; cases ha
      · refine ⟨seconds idx s.tx.eths, i - idx, s.tx.eths[i - idx], ?_, msgOfIndex_seconds _ _ _ h1 h2,
          Nat.le_refl _, h1, ?_, ?_, ?_⟩
        · rw [hx]; exact parse_ok idx s.gas s.tx (hg hf)
        · rw [Nat.sub_self]; unfold execBlock; rfl
        · rw [hm, List.getElem?_map, List.getElem?_eq_getElem h2]; rfl
        · unfold execBlock listing
          rw [hx]
          dsimp only
          rw [if_neg (counts_zero _ _), if_neg (by rw [hd]; decide),
            List.getElem?_append_left h2, List.getElem?_eq_getElem h2]
      · rw [he] at he'; cases he'
    · rw [if_neg hq] at h
      obtain ⟨ps, j, m, e1, e2, e3, e4, e5, e6, e7⟩ := ih (exec idx s).2 (k0 + 1) i k t r hss hnn h hc
      have hidx : idx ≤ (exec idx s).2 ∧
          ((if counts (exec idx s).1 = false ∨ s.tx.decodes = false then [] else s.tx.eths).length
            = (exec idx s).2 - idx) := by
        have href : ∀ a, s.fate = .refused a → exec idx s
            = (⟨5, false, s.gas, if s.tx.ext ∧ a then anteEvents idx s.tx.eths else []⟩, idx) := by
          intro a ha; unfold exec; rw [ha]
        have hzero : ∀ a, s.fate = .refused a → idx ≤ (exec idx s).2 ∧
            ((if counts (exec idx s).1 = false ∨ s.tx.decodes = false then [] else s.tx.eths).length
              = (exec idx s).2 - idx) := by
          intro a ha
          rw [href a ha]
          exact ⟨Nat.le_refl _, by rw [if_pos (.inl rfl), Nat.sub_self]; rfl⟩
        have hnil : s.tx.eths = [] → (exec idx s).2 = idx → idx ≤ (exec idx s).2 ∧
            ((if counts (exec idx s).1 = false ∨ s.tx.decodes = false then [] else s.tx.eths).length
              = (exec idx s).2 - idx) := by
          intro hz hx
          rw [hx, hz]
          exact ⟨Nat.le_refl _, by rw [ite_self, Nat.sub_self]; rfl⟩
        rcases hs s (.head _) with ⟨a, ha⟩ | ⟨hd, ⟨he, hm, hg⟩ | ⟨he, hz⟩⟩
        · exact hzero a ha
        · cases hf : s.fate with
          | refused a => exact hzero a hf
          | spent => exact absurd (hn s (.head _) hf) (by rw [he]; decide)
          | ok =>
            have hx : exec idx s = (⟨0, false, s.gas, anteEvents idx s.tx.eths ++ msgEvents idx s.tx.eths⟩,
                idx + s.tx.eths.length) := by unfold exec; rw [hf]; dsimp only; rw [if_pos he]
            rw [hx]
            refine ⟨Nat.le_add_right _ _, ?_⟩
            rw [if_neg (not_or.2 ⟨counts_zero _ _, by rw [hd]; decide⟩)]
            show _ = idx + s.tx.eths.length - idx
            omega
        · refine hnil hz ?_
          unfold exec
          cases hf : s.fate with
          | refused a => rfl
          | spent => rfl
          | ok => dsimp only; rw [if_neg (by rw [he]; decide)]
      obtain ⟨i1, i2⟩ := hidx
      refine ⟨ps, j, m, e1, e2, by omega, by omega, ?_, e6, ?_⟩
      · unfold execBlock
        rw [show k - k0 = (k - (k0 + 1)) + 1 by omega, List.getElem?_cons_succ]; exact e5
      · rw [listing_cons, List.getElem?_append_right (by omega), i2, ← e7]
        congr 1; omega

end EthIndex
