import Verif.Erc20.CreateSpec
import Verif.Erc20.IbcLemmas2
/-!
# Creating tokens and logos: lemmas
-/
namespace Create

theorem upd_self {α β : Type} [DecidableEq α] (f : α → β) (a : α) (b : β) : upd f a b a = b := if_pos rfl

theorem upd_ne {α β : Type} [DecidableEq α] (f : α → β) {a x : α} (b : β) (h : x ≠ a) : upd f a b x = f x := if_neg h

theorem letter_iff (c : UInt8) : letter c = true ↔ IsLetter c := by
  unfold letter IsLetter
  simp only [Bool.or_eq_true, Bool.and_eq_true, decide_eq_true_eq, UInt8.le_iff_toNat_le]
  exact Iff.rfl

theorem denomChar_iff (c : UInt8) : denomChar c = true ↔ IsDenomChar c := by
  unfold denomChar IsDenomChar
  simp only [Bool.or_eq_true, Bool.and_eq_true, decide_eq_true_eq, UInt8.le_iff_toNat_le, beq_iff_eq, letter_iff, ← UInt8.toNat_inj, List.mem_cons,
    List.not_mem_nil, or_false]
  have h : (48 : UInt8).toNat = 48 ∧ (57 : UInt8).toNat = 57 ∧ (47 : UInt8).toNat = 47 ∧ (58 : UInt8).toNat = 58 ∧ (46 : UInt8).toNat = 46 ∧
    (95 : UInt8).toNat = 95 ∧ (45 : UInt8).toNat = 45 := by decide
  obtain ⟨h1, h2, h3, h4, h5, h6, h7⟩ := h
  rw [h1, h2, h3, h4, h5, h6, h7]
  simp only [or_assoc]

theorem letter_denomChar {c : UInt8} (h : IsLetter c) : IsDenomChar c := Or.inl h

theorem ticker_iff (t : Str) : (denomOk t = true ∧ t.length ≤ 32) ↔ IsTicker t := by
  cases t with
  | nil =>
    constructor
    · intro h
      cases h.1
    · intro h
      exact absurd h.1 (by decide)
  | cons c t =>
    unfold denomOk IsTicker
    simp only [Bool.and_eq_true, decide_eq_true_eq, letter_iff, List.all_eq_true, denomChar_iff, List.length_cons, List.head?_cons, Option.some.injEq,
      List.mem_cons, forall_eq_or_imp, forall_eq']
    constructor
    · rintro ⟨⟨⟨⟨h1, h2⟩, h3⟩, h4⟩, h5⟩
      exact ⟨by omega, by omega, ⟨letter_denomChar h1, h2⟩, h1⟩
    · rintro ⟨h1, h2, ⟨_, h3⟩, h4⟩
      exact ⟨⟨⟨⟨h4, h3⟩, by omega⟩, by omega⟩, by omega⟩

theorem IsTicker.no_space {t : Str} (h : IsTicker t) : 32 ∉ t := by
  intro hm
  have := (denomChar_iff 32).2 (h.2.2.1 32 hm)
  revert this
  decide

theorem IsTicker.not_blank {e : Env} (he : Sane e) {t : Str} (h : IsTicker t) : e.blank t = false := by
  cases hb : e.blank t with
  | false => rfl
  | true =>
    cases t with
    | nil => exact absurd h.1 (by decide)
    | cons c t => exact absurd (h.2.2.1 c List.mem_cons_self) (he.blank _ hb c List.mem_cons_self)

theorem argsOk_iff (e : Env) (r : Req) : argsOk e r = true ↔ e.blank r.name = false ∧ e.blank r.symbol = false ∧ e.blank r.denom = false ∧ 32 ∉ r.name ∧
    32 ∉ r.symbol ∧ 32 ∉ r.denom ∧ r.name.length ≤ 128 ∧ r.symbol.length ≤ 32 ∧ r.denom.length ≤ 32 ∧ 0 < r.supply ∧ r.decimals ≤ 18 := by
  unfold argsOk
  simp only [Bool.if_false_left, List.contains_iff_mem, Bool.and_true, Bool.and_eq_true, Bool.not_eq_true', decide_eq_false_iff_not, Nat.not_lt,
    Bool.not_eq_true, gt_iff_lt, Nat.pos_iff_ne_zero, ne_eq]

theorem metaOk_iff (e : Env) (r : Req) (logo : Str) : metaOk e (metaOf r logo) = true ↔ e.blank r.name = false ∧ e.blank r.symbol = false ∧
    denomOk r.denom = true ∧ denomOk r.symbol = true ∧ r.symbol ≠ r.denom ∧ 1 ≤ r.decimals := by
  unfold metaOk metaOf
  simp only [and_self, if_true, unitsOk]
  cases e.blank r.name <;> cases e.blank r.symbol <;> cases denomOk r.denom <;> cases denomOk r.symbol <;>
    by_cases hs : r.symbol = r.denom <;> by_cases hd : 1 ≤ r.decimals <;> simp [hs, hd] <;> omega

theorem checks_iff {e : Env} (he : Sane e) (r : Req) (logo : Str) : (argsOk e r = true ∧ metaOk e (metaOf r logo) = true) ↔
    (e.blank r.name = false ∧ 32 ∉ r.name ∧ r.name.length ≤ 128) ∧ IsTicker r.symbol ∧ IsTicker r.denom ∧ r.symbol ≠ r.denom ∧ 0 < r.supply ∧
      (1 ≤ r.decimals ∧ r.decimals ≤ 18) := by
  rw [argsOk_iff, metaOk_iff]
  constructor
  · rintro ⟨⟨h1, h2, h3, h4, h5, h6, h7, h8, h9, h10, h11⟩, h12, h13, h14, h15, h16, h17⟩
    exact ⟨⟨h1, h4, h7⟩, (ticker_iff _).1 ⟨h15, h8⟩, (ticker_iff _).1 ⟨h14, h9⟩, h16, h10, h17, h11⟩
  · rintro ⟨⟨h1, h4, h7⟩, hs, hd, h16, h10, h17, h11⟩
    have hs' := (ticker_iff _).2 hs
    have hd' := (ticker_iff _).2 hd
    exact ⟨⟨h1, hs.not_blank he, hd.not_blank he, h4, hs.no_space, hd.no_space, h7, hs'.2, hd'.2, h10, h11⟩, h1, hs.not_blank he, hd'.1, hs'.1, h16, h17⟩

/-- The state after a creation that succeeds. -/
def full (e : Env) (s : State) (r : Req) (logo : Str) : State :=
  registerPair (mintCoins (mintErc (deploy e s (metaOf r logo)).1 (e.addrOf s.seq) r.origin r.supply) r.denom r.origin r.supply) r.denom (e.addrOf s.seq)

/-- The ways in which a creation can end. -/
theorem tail_cases (e : Env) (s0 s : State) (r : Req) (logo : Str) :
    (createTail e s0 s r logo = (s, none) ∧ ¬ (argsOk e r = true ∧ r.origin ≠ 0 ∧ KV.get s.metas r.denom = none ∧ metaOk e (metaOf r logo) = true ∧ r.deploys = true)) ∨
    (createTail e s0 s r logo = ((deploy e s (metaOf r logo)).1, none) ∧ KV.get s.metas r.denom = none ∧ r.mints = false) ∨
    (createTail e s0 s r logo = (s0, none) ∧ ¬ s.supply r.denom + r.supply < 2 ^ 256) ∨
    (createTail e s0 s r logo = (full e s r logo, some (e.addrOf s.seq)) ∧
      (argsOk e r = true ∧ r.origin ≠ 0 ∧ KV.get s.metas r.denom = none ∧ metaOk e (metaOf r logo) = true ∧ r.deploys = true) ∧ r.mints = true ∧
        s.supply r.denom + r.supply < 2 ^ 256) := by
  unfold createTail
  by_cases h1 : argsOk e r = false
  · left
    rw [if_pos h1]
    exact ⟨rfl, fun h => by rw [h.1] at h1; cases h1⟩
  rw [if_neg h1]
  by_cases h2 : r.origin = 0
  · left
    rw [if_pos h2]
    exact ⟨rfl, fun h => h.2.1 h2⟩
  rw [if_neg h2]
  by_cases h3 : (KV.get s.metas r.denom).isSome
  · left
    rw [if_pos h3]
    exact ⟨rfl, fun h => by rw [h.2.2.1] at h3; cases h3⟩
  rw [if_neg h3]
  have h3' : KV.get s.metas r.denom = none := by
    cases h : KV.get s.metas r.denom with
    | none => rfl
    | some m => rw [h] at h3; exact absurd rfl h3
  by_cases h4 : metaOk e (metaOf r logo) = false
  · left
    rw [if_pos h4]
    exact ⟨rfl, fun h => by rw [h.2.2.2.1] at h4; cases h4⟩
  rw [if_neg h4]
  by_cases h5 : r.deploys = false
  · left
    rw [if_pos h5]
    exact ⟨rfl, fun h => by rw [h.2.2.2.2] at h5; cases h5⟩
  rw [if_neg h5]
  dsimp only
  by_cases h6 : r.mints = false
  · right; left
    rw [if_pos h6]
    exact ⟨rfl, h3', h6⟩
  rw [if_neg h6]
  have hsup : (mintErc (deploy e s (metaOf r logo)).1 (deploy e s (metaOf r logo)).2 r.origin r.supply).supply r.denom = s.supply r.denom := rfl
  rw [hsup]
  by_cases h7 : 2 ^ 256 ≤ s.supply r.denom + r.supply
  · right; right; left
    rw [if_pos h7]
    exact ⟨rfl, by omega⟩
  rw [if_neg h7]
  right; right; right
  exact ⟨rfl, ⟨by simpa using h1, h2, h3', by simpa using h4, by simpa using h5⟩, by simpa using h6, by omega⟩

/-- The state after the logo is stored. -/
def withLogo (e : Env) (s : State) (data : Str) (h : Nat) : State :=
  if data = [] then s else { s with logos := KV.set s.logos (e.sha data) { hash := e.sha data, data := data, createdAt := h } }

def logoName (e : Env) (data : Str) : Str := if data = [] then [] else e.sha data

theorem logoOk_iff (e : Env) (max : Nat) (data : Str) : logoOk e max data = true ↔ LogoFits e max data := by
  unfold logoOk LogoFits
  by_cases h : data.length > max * 4 / 3
  · rw [if_pos h]
    constructor
    · intro h'; cases h'
    · rintro ⟨h', _⟩
      omega
  · rw [if_neg h]
    constructor
    · intro h'
      exact ⟨by omega, h'⟩
    · exact fun h' => h'.2

theorem storeLogo_some {e : Env} {s : State} {data : Str} {h : Nat} (hf : LogoFits e s.maxLogo data) : storeLogo e s data h =
    some ({ s with logos := KV.set s.logos (e.sha data) { hash := e.sha data, data := data, createdAt := h } }, e.sha data) := by
  unfold storeLogo
  rw [if_pos ((logoOk_iff _ _ _).2 hf)]

theorem storeLogo_none {e : Env} {s : State} {data : Str} {h : Nat} (hf : ¬ LogoFits e s.maxLogo data) : storeLogo e s data h = none := by
  unfold storeLogo
  rw [if_neg (fun h' => hf ((logoOk_iff _ _ _).1 h'))]

theorem create_cases (e : Env) (s : State) (r : Req) :
    (create e s r = (s, none) ∧ r.logo ≠ [] ∧ ¬ LogoFits e s.maxLogo r.logo) ∨
    ((r.logo ≠ [] → LogoFits e s.maxLogo r.logo) ∧
      create e s r = createTail e s (withLogo e s r.logo r.height) r (logoName e r.logo)) := by
  unfold create withLogo logoName
  by_cases hl : r.logo = []
  · right
    rw [if_pos hl, if_pos hl, if_pos hl]
    exact ⟨fun h => absurd hl h, rfl⟩
  · rw [if_neg hl, if_neg hl, if_neg hl]
    by_cases hf : LogoFits e s.maxLogo r.logo
    · right
      rw [storeLogo_some hf]
      exact ⟨fun _ => hf, rfl⟩
    · left
      rw [storeLogo_none hf]
      exact ⟨rfl, hl, hf⟩

theorem withLogo_same (e : Env) (s : State) (data : Str) (h : Nat) : (withLogo e s data h).metas = s.metas ∧ (withLogo e s data h).bal = s.bal ∧
    (withLogo e s data h).supply = s.supply ∧ (withLogo e s data h).erc = s.erc ∧ (withLogo e s data h).seq = s.seq ∧
    (withLogo e s data h).denomMap = s.denomMap ∧ (withLogo e s data h).ercMap = s.ercMap ∧ (withLogo e s data h).dynamic = s.dynamic ∧
    (withLogo e s data h).maxLogo = s.maxLogo := by
  unfold withLogo
  split
  · exact ⟨rfl, rfl, rfl, rfl, rfl, rfl, rfl, rfl, rfl⟩
  · exact ⟨rfl, rfl, rfl, rfl, rfl, rfl, rfl, rfl, rfl⟩

theorem create_some {e : Env} {s : State} {r : Req} {s' : State} {a : Nat} (h : create e s r = (s', some a)) :
    a = e.addrOf s.seq ∧ s' = full e (withLogo e s r.logo r.height) r (logoName e r.logo) ∧ (r.logo ≠ [] → LogoFits e s.maxLogo r.logo) ∧
    (argsOk e r = true ∧ r.origin ≠ 0 ∧ KV.get s.metas r.denom = none ∧ metaOk e (metaOf r (logoName e r.logo)) = true ∧ r.deploys = true) ∧ r.mints = true ∧
        s.supply r.denom + r.supply < 2 ^ 256 := by
  obtain ⟨w1, w2, w3, w4, w5, w6, w7, w8, w9⟩ := withLogo_same e s r.logo r.height
  rcases create_cases e s r with ⟨hc, _⟩ | ⟨hf, hc⟩
  · rw [hc] at h
    cases h
  · rw [hc] at h
    rcases tail_cases e s (withLogo e s r.logo r.height) r (logoName e r.logo) with ⟨ht, _⟩ | ⟨ht, _⟩ | ⟨ht, _⟩ | ⟨ht, h1, h2, h3⟩
    · rw [ht] at h; cases h
    · rw [ht] at h; cases h
    · rw [ht] at h; cases h
    · rw [ht, w5] at h
      rw [w1] at h1
      rw [w3] at h3
      cases h
      exact ⟨rfl, rfl, hf, h1, h2, h3⟩

/-- What every operation does, case by case. -/
theorem step_ind {e : Env} {P : State → State → Prop} (refl : ∀ s, P s s)
    (logo : ∀ s data h, LogoFits e s.maxLogo data → P s (withLogo e s data h))
    (dep : ∀ s r, (r.logo ≠ [] → LogoFits e s.maxLogo r.logo) → KV.get s.metas r.denom = none →
      P s (deploy e (withLogo e s r.logo r.height) (metaOf r (logoName e r.logo))).1)
    (made : ∀ s r, (r.logo ≠ [] → LogoFits e s.maxLogo r.logo) → KV.get s.metas r.denom = none →
      P s (full e (withLogo e s r.logo r.height) r (logoName e r.logo)))
    (max : ∀ s n, P s { s with maxLogo := n })
    (snd : ∀ s d a b n, n ≤ s.bal d a → P s (step e s (.send d a b n))) (hnil : ∀ s h, LogoFits e s.maxLogo [] → 
      P s { s with logos := KV.set s.logos (e.sha []) { hash := e.sha [], data := [], createdAt := h } }) (s : State) (op : Op) : P s (step e s op) := by
  cases op with
  | create r caught =>
    unfold step
    dsimp only
    rcases create_cases e s r with ⟨hc, _⟩ | ⟨hf, hc⟩
    · rw [hc]
      dsimp only
      split <;> exact refl s
    · rw [hc]
      obtain ⟨w1, -⟩ := withLogo_same e s r.logo r.height
      rcases tail_cases e s (withLogo e s r.logo r.height) r (logoName e r.logo) with ⟨ht, _⟩ | ⟨ht, h1, _⟩ | ⟨ht, _⟩ | ⟨ht, h1, h2, h3⟩
      · rw [ht]
        dsimp only
        split
        · by_cases hl : r.logo = []
          · have : withLogo e s r.logo r.height = s := if_pos hl
            rw [this]
            exact refl s
          · exact logo s _ _ (hf hl)
        · exact refl s
      · rw [ht]
        dsimp only
        split
        · exact dep s r hf (w1 ▸ h1)
        · exact refl s
      · rw [ht]
        dsimp only
        split <;> exact refl s
      · rw [ht]
        exact made s r hf (w1 ▸ h1.2.2.1)
  | upload data h =>
    unfold step
    dsimp only
    by_cases hf : LogoFits e s.maxLogo data
    · rw [storeLogo_some hf]
      by_cases hd : data = []
      · subst hd
        exact hnil s h hf
      · have := logo s data h hf
        unfold withLogo at this
        rw [if_neg hd] at this
        exact this
    · rw [storeLogo_none hf]
      exact refl s
  | setMax n => exact max s n
  | send d a b n =>
    by_cases hn : n ≤ s.bal d a
    · exact snd s d a b n hn
    · unfold step
      dsimp only
      rw [if_pos (by omega)]
      exact refl s

theorem send_eq {e : Env} {s : State} {d : Str} {a b n : Nat} (h : n ≤ s.bal d a) : step e s (.send d a b n) =
    { s with bal := upd s.bal d (Erc20.Ibc.moved (s.bal d) a b n) } := by
  unfold step
  dsimp only
  rw [if_neg (by omega)]
  rfl

/-- Descriptions are never changed. -/
theorem step_metas {e : Env} {s : State} {d : Str} {m : Meta} (op : Op) (h : KV.get s.metas d = some m) : KV.get (step e s op).metas d = some m := by
  refine step_ind (e := e) (P := fun s t => ∀ d m, KV.get s.metas d = some m → KV.get t.metas d = some m) ?_ ?_ ?_ ?_ ?_ ?_ ?_ s op d m h
  · exact fun s d m h => h
  · intro s data hh _ d m h
    rw [(withLogo_same e s data hh).1]
    exact h
  · intro s r _ hn d m h
    show KV.get (KV.set (withLogo e s r.logo r.height).metas r.denom _) d = some m
    rw [KV.get_set, (withLogo_same e s r.logo r.height).1, if_neg]
    · exact h
    · rintro rfl
      rw [hn] at h
      cases h
  · intro s r _ hn d m h
    show KV.get (KV.set (withLogo e s r.logo r.height).metas r.denom _) d = some m
    rw [KV.get_set, (withLogo_same e s r.logo r.height).1, if_neg]
    · exact h
    · rintro rfl
      rw [hn] at h
      cases h
  · exact fun s n d m h => h
  · intro s d a b n hn d' m h
    rw [send_eq hn]
    exact h
  · exact fun s n _ d m h => h

theorem run_metas {e : Env} {d : Str} {m : Meta} (ops : List Op) {s : State} (h : KV.get s.metas d = some m) : KV.get (run e s ops).metas d = some m := by
  induction ops generalizing s with
  | nil => exact h
  | cons op ops ih => exact ih (step_metas op h)

/-- The supply of a described coin stays. -/
theorem step_supply {e : Env} {s : State} {d : Str} (op : Op) (h : (KV.get s.metas d).isSome) : (step e s op).supply d = s.supply d := by
  refine step_ind (e := e) (P := fun s t => ∀ d, (KV.get s.metas d).isSome → t.supply d = s.supply d) ?_ ?_ ?_ ?_ ?_ ?_ ?_ s op d h
  · exact fun s d h => rfl
  · intro s data hh _ d h
    rw [(withLogo_same e s data hh).2.2.1]
  · intro s r _ hn d h
    show (withLogo e s r.logo r.height).supply d = _
    rw [(withLogo_same e s r.logo r.height).2.2.1]
  · intro s r _ hn d h
    show upd (withLogo e s r.logo r.height).supply r.denom _ d = _
    rw [upd_ne, (withLogo_same e s r.logo r.height).2.2.1]
    rintro rfl
    rw [hn] at h
    cases h
  · exact fun s n d h => rfl
  · intro s d a b n hn d' h
    rw [send_eq hn]
  · exact fun s n _ d h => rfl

theorem run_supply {e : Env} {d : Str} (ops : List Op) {s : State} (h : (KV.get s.metas d).isSome) : (run e s ops).supply d = s.supply d := by
  induction ops generalizing s with
  | nil => rfl
  | cons op ops ih =>
    obtain ⟨m, hm⟩ := Option.isSome_iff_exists.1 h
    show (run e (step e s op) ops).supply d = _
    rw [ih (by rw [step_metas op hm]; rfl), step_supply op h]

theorem step_seq (e : Env) (s : State) (op : Op) : s.seq ≤ (step e s op).seq := by
  refine step_ind (e := e) (P := fun s t => s.seq ≤ t.seq) ?_ ?_ ?_ ?_ ?_ ?_ ?_ s op
  · exact fun s => Nat.le_refl _
  · intro s data hh _
    rw [(withLogo_same e s data hh).2.2.2.2.1]
    exact Nat.le_refl _
  · intro s r _ _
    show _ ≤ (withLogo e s r.logo r.height).seq + 1
    rw [(withLogo_same e s r.logo r.height).2.2.2.2.1]
    exact Nat.le_succ _
  · intro s r _ _
    show _ ≤ (withLogo e s r.logo r.height).seq + 1 + 1
    rw [(withLogo_same e s r.logo r.height).2.2.2.2.1]
    exact Nat.le_add_right _ 2
  · exact fun s n => Nat.le_refl _
  · intro s d a b n hn
    rw [send_eq hn]
    exact Nat.le_refl _
  · exact fun s n _ => Nat.le_refl _

theorem run_seq (e : Env) (ops : List Op) (s : State) : s.seq ≤ (run e s ops).seq := by
  induction ops generalizing s with
  | nil => exact Nat.le_refl _
  | cons op ops ih => exact Nat.le_trans (step_seq e s op) (ih _)

theorem Books.logoStored {e : Env} {s : State} (h : Books e s) (data : Str) (hh : Nat) : Books e (withLogo e s data hh) := by
  obtain ⟨w1, w2, w3, w4, w5, w6, w7, w8, w9⟩ := withLogo_same e s data hh
  constructor
  · rw [w7, w5]; exact h.used
  · rw [w6, w7]; exact h.there
  · rw [w6, w7]; exact h.back
  · rw [w6, w1]; exact h.described
  · rw [w6, w8, w4]; exact h.live

theorem Books.deployed {e : Env} {s : State} (h : Books e s) {m : Meta} (hn : KV.get s.metas m.base = none) : Books e (deploy e s m).1 := by
  constructor
  · intro a d ha
    obtain ⟨k, hk, he⟩ := h.used a d ha
    exact ⟨k, Nat.lt_succ_of_lt hk, he⟩
  · exact h.there
  · exact h.back
  · intro d a ha
    obtain ⟨m', hm, hb⟩ := h.described d a ha
    refine ⟨m', ?_, hb⟩
    show KV.get (KV.set s.metas m.base _) d = some m'
    rw [KV.get_set, if_neg]
    · exact hm
    · rintro rfl
      rw [hn] at hm
      cases hm
  · intro d a ha
    obtain ⟨h1, h2⟩ := h.live d a ha
    refine ⟨h1, ?_⟩
    show (upd s.erc (e.addrOf s.seq) _ a).isSome
    by_cases hx : a = e.addrOf s.seq
    · rw [hx, upd_self]; rfl
    · rw [upd_ne _ _ hx]; exact h2

theorem Books.made {e : Env} {s : State} (h : Books e s) {r : Req} {logo : Str} (hn : KV.get s.metas r.denom = none)
    (hfresh : ∀ k, k < s.seq → e.addrOf k ≠ e.addrOf s.seq) : Books e (full e s r logo) := by
  have h0 := h.deployed (m := metaOf r logo) hn
  have hd : s.denomMap r.denom = none := by
    cases hx : s.denomMap r.denom with
    | none => rfl
    | some a =>
      obtain ⟨m, hm, _⟩ := h.described _ _ hx
      rw [hn] at hm
      cases hm
  have hA : s.ercMap (e.addrOf s.seq) = none := by
    cases hx : s.ercMap (e.addrOf s.seq) with
    | none => rfl
    | some d =>
      obtain ⟨k, hk, he⟩ := h.used _ _ hx
      exact absurd he.symm (hfresh k hk)
  constructor
  · intro a d ha
    change upd s.ercMap (e.addrOf s.seq) (some r.denom) a = some d at ha
    by_cases hx : a = e.addrOf s.seq
    · exact ⟨s.seq, Nat.lt_add_of_pos_right (k := 2) (by decide), hx⟩
    · rw [upd_ne _ _ hx] at ha
      obtain ⟨k, hk, he⟩ := h.used a d ha
      exact ⟨k, Nat.lt_add_right 2 hk, he⟩
  · intro d a ha
    change upd s.denomMap r.denom (some (e.addrOf s.seq)) d = some a at ha
    show upd s.ercMap (e.addrOf s.seq) (some r.denom) a = some d
    by_cases hx : d = r.denom
    · rw [hx, upd_self] at ha
      cases ha
      rw [upd_self, hx]
    · rw [upd_ne _ _ hx] at ha
      have := h.there _ _ ha
      rw [upd_ne]
      · exact this
      · rintro rfl
        rw [hA] at this
        cases this
  · intro d a ha
    change upd s.ercMap (e.addrOf s.seq) (some r.denom) a = some d at ha
    show upd s.denomMap r.denom (some (e.addrOf s.seq)) d = some a
    by_cases hx : a = e.addrOf s.seq
    · rw [hx, upd_self] at ha
      cases ha
      rw [upd_self, hx]
    · rw [upd_ne _ _ hx] at ha
      have := h.back _ _ ha
      rw [upd_ne]
      · exact this
      · rintro rfl
        rw [hd] at this
        cases this
  · intro d a ha
    change upd s.denomMap r.denom (some (e.addrOf s.seq)) d = some a at ha
    by_cases hx : d = r.denom
    · rw [hx, upd_self] at ha
      cases ha
      refine ⟨{ metaOf r logo with contract := e.addrOf s.seq }, ?_, hx.symm, rfl⟩
      show KV.get (KV.set s.metas r.denom _) d = _
      rw [KV.get_set, if_pos hx]
    · rw [upd_ne _ _ hx] at ha
      exact h0.described d a ha
  · intro d a ha
    change upd s.denomMap r.denom (some (e.addrOf s.seq)) d = some a at ha
    show a ∈ e.addrOf s.seq :: s.dynamic.erase (e.addrOf s.seq) ∧ (upd (deploy e s (metaOf r logo)).1.erc (e.addrOf s.seq) _ a).isSome
    by_cases hx : a = e.addrOf s.seq
    · refine ⟨hx ▸ List.mem_cons_self, ?_⟩
      rw [hx, upd_self]
      show ((upd s.erc (e.addrOf s.seq) _ (e.addrOf s.seq)).map _).isSome
      rw [upd_self]
      rfl
    · have hdx : d ≠ r.denom := by
        rintro rfl
        rw [upd_self] at ha
        cases ha
        exact hx rfl
      rw [upd_ne _ _ hdx] at ha
      obtain ⟨h1, h2⟩ := h0.live d a ha
      rw [upd_ne _ _ hx]
      exact ⟨List.mem_cons_of_mem _ ((List.mem_erase_of_ne hx).2 h1), h2⟩

theorem step_books {e : Env} {s : State} (op : Op) (h : Books e s)
    (hi : ∀ i j, i < (step e s op).seq → j < (step e s op).seq → e.addrOf i = e.addrOf j → i = j) : Books e (step e s op) := by
  refine step_ind (e := e) (P := fun s t => Books e s → (∀ i j, i < t.seq → j < t.seq → e.addrOf i = e.addrOf j → i = j) → Books e t)
    ?_ ?_ ?_ ?_ ?_ ?_ ?_ s op h hi
  · exact fun s h _ => h
  · exact fun s data hh _ h _ => h.logoStored data hh
  · intro s r _ hn h _
    exact (h.logoStored r.logo r.height).deployed (by rw [(withLogo_same e s r.logo r.height).1]; exact hn)
  · intro s r _ hn h hi
    refine (h.logoStored r.logo r.height).made (by rw [(withLogo_same e s r.logo r.height).1]; exact hn) ?_
    intro k hk hx
    have hseq : (full e (withLogo e s r.logo r.height) r (logoName e r.logo)).seq = (withLogo e s r.logo r.height).seq + 2 := rfl
    rw [hseq] at hi
    have := hi _ _ (by omega) (by omega) hx
    omega
  · exact fun s n h _ => ⟨h.used, h.there, h.back, h.described, h.live⟩
  · intro s d a b n hn h _
    rw [send_eq hn]
    exact ⟨h.used, h.there, h.back, h.described, h.live⟩
  · exact fun s n _ h _ => ⟨h.used, h.there, h.back, h.described, h.live⟩

theorem run_books {e : Env} (ops : List Op) {s : State} (h : Books e s)
    (hi : ∀ i j, i < (run e s ops).seq → j < (run e s ops).seq → e.addrOf i = e.addrOf j → i = j) : Books e (run e s ops) := by
  induction ops generalizing s with
  | nil => exact h
  | cons op ops ih =>
    have hle := run_seq e ops (step e s op)
    exact ih (step_books op h fun i j h1 h2 => hi i j (Nat.lt_of_lt_of_le h1 hle) (Nat.lt_of_lt_of_le h2 hle)) hi

theorem filed_set {e : Env} {s : State} (h : Filed e s) {data : Str} {n : Nat} (hp : e.png data = true) :
    Filed e { s with logos := KV.set s.logos (e.sha data) { hash := e.sha data, data := data, createdAt := n } } := by
  intro k l hk
  change KV.get (KV.set s.logos _ _) k = some l at hk
  rw [KV.get_set] at hk
  split at hk
  · cases hk
    rename_i hx
    exact ⟨hx.symm, hx, hp⟩
  · exact h k l hk

theorem filed_withLogo {e : Env} {s : State} (h : Filed e s) {data : Str} {n : Nat} (hp : data ≠ [] → e.png data = true) : Filed e (withLogo e s data n) := by
  unfold withLogo
  split
  · exact h
  · rename_i hd
    exact filed_set h (hp hd)

theorem step_filed {e : Env} {s : State} (op : Op) (h : Filed e s) : Filed e (step e s op) := by
  refine step_ind (e := e) (P := fun s t => Filed e s → Filed e t) ?_ ?_ ?_ ?_ ?_ ?_ ?_ s op h
  · exact fun s h => h
  · exact fun s data hh hf h => filed_withLogo h fun _ => hf.2
  · exact fun s r hf _ h => filed_withLogo h fun hl => (hf hl).2
  · exact fun s r hf _ h => filed_withLogo h fun hl => (hf hl).2
  · exact fun s n h => h
  · intro s d a b n hn h
    rw [send_eq hn]
    exact h
  · exact fun s n hf h => filed_set h hf.2

/-- Logos are never removed. -/
theorem withLogo_keeps {e : Env} {s : State} {data : Str} {n : Nat} {k : Str} (h : (KV.get s.logos k).isSome) : (KV.get (withLogo e s data n).logos k).isSome := by
  unfold withLogo
  split
  · exact h
  · show (KV.get (KV.set s.logos _ _) k).isSome
    rw [KV.get_set]
    split
    · rfl
    · exact h

theorem there_deploy {e : Env} {s : State} (h : LogosThere s) (r : Req) :
    LogosThere (deploy e (withLogo e s r.logo r.height) (metaOf r (logoName e r.logo))).1 := by
  intro d m hm hl
  change KV.get (KV.set (withLogo e s r.logo r.height).metas r.denom _) d = some m at hm
  show (KV.get (withLogo e s r.logo r.height).logos m.logo).isSome
  rw [KV.get_set] at hm
  split at hm
  · cases hm
    change logoName e r.logo ≠ [] at hl
    show (KV.get (withLogo e s r.logo r.height).logos (logoName e r.logo)).isSome
    unfold logoName at hl ⊢
    unfold withLogo
    split at hl
    · exact absurd rfl hl
    · rename_i hx
      rw [if_neg hx, if_neg hx]
      show (KV.get (KV.set s.logos _ _) _).isSome
      rw [KV.get_set, if_pos rfl]
      rfl
  · rw [(withLogo_same e s r.logo r.height).1] at hm
    exact withLogo_keeps (h d m hm hl)

theorem step_there {e : Env} {s : State} (op : Op) (h : LogosThere s) : LogosThere (step e s op) := by
  refine step_ind (e := e) (P := fun s t => LogosThere s → LogosThere t) ?_ ?_ ?_ ?_ ?_ ?_ ?_ s op h
  · exact fun s h => h
  · intro s data hh hf h d m hm hl
    rw [(withLogo_same e s data hh).1] at hm
    exact withLogo_keeps (h d m hm hl)
  · exact fun s r hf _ h => there_deploy h r
  · exact fun s r hf _ h => there_deploy h r
  · exact fun s n h => h
  · intro s d a b n hn h
    rw [send_eq hn]
    exact h
  · intro s n hf h d m hm hl
    show (KV.get (KV.set s.logos _ _) _).isSome
    rw [KV.get_set]
    split
    · rfl
    · exact h d m hm hl

theorem step_covers {e : Env} {s : State} (op : Op) (h : ∀ d, Covers (s.bal d) (s.supply d)) (d : Str) :
    Covers ((step e s op).bal d) ((step e s op).supply d) := by
  refine step_ind (e := e) (P := fun s t => (∀ d, Covers (s.bal d) (s.supply d)) → ∀ d, Covers (t.bal d) (t.supply d)) ?_ ?_ ?_ ?_ ?_ ?_ ?_ s op h d
  · exact fun s h => h
  · intro s data hh hf h
    rw [(withLogo_same e s data hh).2.1, (withLogo_same e s data hh).2.2.1]
    exact h
  · intro s r hf _ h
    show ∀ d, Covers ((withLogo e s r.logo r.height).bal d) ((withLogo e s r.logo r.height).supply d)
    rw [(withLogo_same e s r.logo r.height).2.1, (withLogo_same e s r.logo r.height).2.2.1]
    exact h
  · intro s r hf _ h d
    show Covers (upd (withLogo e s r.logo r.height).bal r.denom
      (upd ((withLogo e s r.logo r.height).bal r.denom) r.origin ((withLogo e s r.logo r.height).bal r.denom r.origin + r.supply)) d)
      (upd (withLogo e s r.logo r.height).supply r.denom ((withLogo e s r.logo r.height).supply r.denom + r.supply) d)
    rw [(withLogo_same e s r.logo r.height).2.1, (withLogo_same e s r.logo r.height).2.2.1]
    by_cases hx : d = r.denom
    · rw [hx, upd_self, upd_self]
      exact Erc20.Ibc.Covered.add (h r.denom) r.origin r.supply
    · rw [upd_ne _ _ hx, upd_ne _ _ hx]
      exact h d
  · exact fun s n h => h
  · intro s d a b n hn h d'
    rw [send_eq hn]
    show Covers (upd s.bal d _ d') (s.supply d')
    by_cases hx : d' = d
    · rw [hx, upd_self]
      exact Erc20.Ibc.Covered.moved (h d) b hn
    · rw [upd_ne _ _ hx]
      exact h d'
  · exact fun s n _ h => h

end Create
