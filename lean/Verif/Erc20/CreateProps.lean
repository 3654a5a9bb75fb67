import Verif.Erc20.CreateLemmas
import Verif.Erc20.CreateRevert
/-!
# Creating tokens and logos: what is proved
-/
namespace Create

/-! A setting for the examples: the hash puts a 7 in front, pictures have 8 characters, a text is blank if it consists of spaces and tabs. -/

def e0 : Env :=
  { sha := fun t => 7 :: t, png := fun t => t.length == 8, blank := fun t => t.all (fun c => c == 32 || c == 9), addrOf := fun n => n + 1000 }

theorem e0_sane : Sane e0 := by
  constructor
  intro t ht c hc hd
  have h1 : (c == 32 || c == 9) = true := List.all_eq_true.1 ht c hc
  have h2 := (denomChar_iff c).2 hd
  rcases Bool.or_eq_true _ _ ▸ h1 with h | h
  · rw [eq_of_beq h] at h2
    revert h2
    decide
  · rw [eq_of_beq h] at h2
    revert h2
    decide

/-- 100 million millionths of Gold: `GLD`, `ugld`, created by 1 through the contract 2. -/
def gold : Req :=
  { origin := 1, caller := 2, name := [71, 111, 108, 100], symbol := [71, 76, 68], denom := [117, 103, 108, 100], supply := 100, decimals := 6,
    logo := [1, 2, 3, 4, 5, 6, 7, 8], height := 5 }

/-- Silver, created by 3. -/
def silver : Req := { gold with origin := 3, name := [83], symbol := [83, 76, 86], denom := [117, 115, 108, 118], supply := 40, decimals := 18, logo := [] }

/-- 50 `ugld` exist, held by 9. -/
def held50 : State :=
  { supply := fun d => if d = [117, 103, 108, 100] then 50 else 0, bal := fun d x => if d = [117, 103, 108, 100] ∧ x = 9 then 50 else 0 }

theorem some_of_isSome {e : Env} {s : State} {r : Req} (h : (create e s r).2.isSome = true) : ∃ s' a, create e s r = (s', some a) := by
  obtain ⟨a, ha⟩ := Option.isSome_iff_exists.1 h
  exact ⟨_, a, by rw [← ha]⟩

/-- Exactly the acceptable creations are accepted. -/
theorem create_iff {e : Env} (he : Sane e) (s : State) (r : Req) : (create e s r).2.isSome ↔ Acceptable e s r := by
  obtain ⟨w1, w2, w3, w4, w5, w6, w7, w8, w9⟩ := withLogo_same e s r.logo r.height
  constructor
  · intro h
    obtain ⟨a, ha⟩ := Option.isSome_iff_exists.1 h
    obtain ⟨h1, h2, h3, ⟨h4, h5, h6, h7, h8⟩, h9, h10⟩ := create_some (s' := (create e s r).1) (a := a) (by rw [← ha])
    obtain ⟨c1, c2, c3, c4, c5, c6⟩ := (checks_iff he r _).1 ⟨h4, h7⟩
    exact ⟨c1, c2, c3, c4, c5, c6, h5, h6, h3, ⟨h8, h9⟩, h10⟩
  · intro h
    rcases create_cases e s r with ⟨_, hl, hf⟩ | ⟨hf, hc⟩
    · exact absurd (h.logo hl) hf
    · have hk := (checks_iff he r (logoName e r.logo)).2 ⟨h.name, h.symbol, h.denom, h.differ, h.supply, h.decimals⟩
      rw [hc]
      rcases tail_cases e s (withLogo e s r.logo r.height) r (logoName e r.logo) with ⟨_, hn⟩ | ⟨_, _, hm⟩ | ⟨_, hn⟩ | ⟨ht, _⟩
      · exact absurd ⟨hk.1, h.origin, by rw [w1]; exact h.new, hk.2, h.evm.1⟩ hn
      · rw [h.evm.2] at hm
        cases hm
      · exact absurd (by rw [w3]; exact h.range) hn
      · rw [ht]
        rfl

/-- What a creation does: the address of the new contract, the description, the registration, the coins, and what it leaves alone. -/
theorem created {e : Env} {s s' : State} {r : Req} {a : Nat} (h : create e s r = (s', some a)) :
    a = e.addrOf s.seq ∧
    KV.get s'.metas r.denom = some
      { base := r.denom, name := r.name, symbol := r.symbol, decimals := r.decimals, display := r.symbol,
        units := [(r.denom, 0), (r.symbol, r.decimals)], logo := if r.logo = [] then [] else e.sha r.logo, contract := a } ∧
    s'.denomMap r.denom = some a ∧ s'.ercMap a = some r.denom ∧ a ∈ s'.dynamic ∧
    s'.supply r.denom = s.supply r.denom + r.supply ∧
    (∀ x, s'.bal r.denom x = s.bal r.denom x + if x = r.origin then r.supply else 0) ∧
    (∀ d, d ≠ r.denom → s'.bal d = s.bal d ∧ s'.supply d = s.supply d ∧ s'.denomMap d = s.denomMap d ∧ KV.get s'.metas d = KV.get s.metas d) ∧
    (∀ b, b ≠ a → s'.erc b = s.erc b ∧ s'.ercMap b = s.ercMap b ∧ (b ∈ s.dynamic → b ∈ s'.dynamic)) := by
  obtain ⟨h1, h2, h3, _⟩ := create_some h
  obtain ⟨w1, w2, w3, w4, w5, w6, w7, w8, w9⟩ := withLogo_same e s r.logo r.height
  have hA : e.addrOf (withLogo e s r.logo r.height).seq = a := by rw [w5, h1]
  refine ⟨h1, ?_, ?_, ?_, ?_, ?_, ?_, ?_, ?_⟩
  · rw [h2]
    show KV.get (KV.set (withLogo e s r.logo r.height).metas r.denom
      { metaOf r (logoName e r.logo) with contract := e.addrOf (withLogo e s r.logo r.height).seq }) r.denom = _
    rw [KV.get_set, if_pos rfl, hA]
    rfl
  · rw [h2]
    show upd _ r.denom (some (e.addrOf (withLogo e s r.logo r.height).seq)) r.denom = _
    rw [upd_self, hA]
  · rw [h2]
    show upd _ (e.addrOf (withLogo e s r.logo r.height).seq) (some r.denom) a = _
    rw [hA, upd_self]
  · rw [h2]
    show a ∈ e.addrOf (withLogo e s r.logo r.height).seq :: _
    rw [hA]
    exact List.mem_cons_self
  · rw [h2]
    show upd (withLogo e s r.logo r.height).supply r.denom ((withLogo e s r.logo r.height).supply r.denom + r.supply) r.denom = _
    rw [upd_self, w3]
  · intro x
    rw [h2]
    show upd (withLogo e s r.logo r.height).bal r.denom
      (upd ((withLogo e s r.logo r.height).bal r.denom) r.origin ((withLogo e s r.logo r.height).bal r.denom r.origin + r.supply)) r.denom x = _
    rw [upd_self, w2]
    by_cases hx : x = r.origin
    · rw [if_pos hx, hx, upd_self]
    · rw [if_neg hx, upd_ne _ _ hx, Nat.add_zero]
  · intro d hd
    rw [h2]
    refine ⟨?_, ?_, ?_, ?_⟩
    · show upd (withLogo e s r.logo r.height).bal r.denom _ d = _
      rw [upd_ne _ _ hd, w2]
    · show upd (withLogo e s r.logo r.height).supply r.denom _ d = _
      rw [upd_ne _ _ hd, w3]
    · show upd (withLogo e s r.logo r.height).denomMap r.denom _ d = _
      rw [upd_ne _ _ hd, w6]
    · show KV.get (KV.set (withLogo e s r.logo r.height).metas r.denom _) d = _
      rw [KV.get_set, if_neg hd, w1]
  · intro b hb
    have hb' : b ≠ e.addrOf (withLogo e s r.logo r.height).seq := by rw [hA]; exact hb
    rw [h2]
    refine ⟨?_, ?_, ?_⟩
    · show upd (upd (withLogo e s r.logo r.height).erc (e.addrOf (withLogo e s r.logo r.height).seq) _) _ _ b = _
      rw [upd_ne _ _ hb', upd_ne _ _ hb', w4]
    · show upd (withLogo e s r.logo r.height).ercMap _ _ b = _
      rw [upd_ne _ _ hb', w7]
    · intro hm
      show b ∈ _ :: (withLogo e s r.logo r.height).dynamic.erase _
      rw [w8]
      exact List.mem_cons_of_mem _ ((List.mem_erase_of_ne hb').2 hm)

/-- The full amount exists a second time: in the storage of the new contract, whose code no longer runs because the address is answered by the built-in token. -/
theorem amount_exists_twice {e : Env} {s s' : State} {r : Req} {a : Nat} (h : create e s r = (s', some a)) :
    ∃ c, s'.erc a = some c ∧ c.name = r.name ∧ c.symbol = r.symbol ∧ c.decimals = r.decimals ∧ c.total = r.supply ∧
      ∀ x, c.bal x = if x = r.origin then r.supply else 0 := by
  obtain ⟨h1, h2, h3, _⟩ := create_some h
  obtain ⟨w1, w2, w3, w4, w5, w6, w7, w8, w9⟩ := withLogo_same e s r.logo r.height
  have hA : e.addrOf (withLogo e s r.logo r.height).seq = a := by rw [w5, h1]
  refine ⟨{ name := r.name, symbol := r.symbol, decimals := r.decimals, total := 0 + r.supply, bal := upd (fun _ => 0) r.origin (0 + r.supply) },
    ?_, rfl, rfl, rfl, Nat.zero_add _, ?_⟩
  · rw [h2]
    show upd (deploy e (withLogo e s r.logo r.height) (metaOf r (logoName e r.logo))).1.erc (e.addrOf (withLogo e s r.logo r.height).seq)
      (((deploy e (withLogo e s r.logo r.height) (metaOf r (logoName e r.logo))).1.erc (e.addrOf (withLogo e s r.logo r.height).seq)).map _) a = _
    rw [hA, upd_self]
    show Option.map _ (upd _ (e.addrOf (withLogo e s r.logo r.height).seq) _ a) = _
    rw [hA, upd_self]
    rfl
  · intro x
    show upd (fun _ => 0) r.origin (0 + r.supply) x = _
    by_cases hx : x = r.origin
    · rw [if_pos hx, hx, upd_self, Nat.zero_add]
    · rw [if_neg hx, upd_ne _ _ hx]

/-- The account that calls plays no part: the tokens go to the origin of the transaction. -/
theorem caller_gets_nothing {e : Env} {s s' : State} {r : Req} {a : Nat} (h : create e s r = (s', some a)) (hc : r.caller ≠ r.origin) :
    (∀ d, s'.bal d r.caller = s.bal d r.caller) ∧ s'.bal r.denom r.origin = s.bal r.denom r.origin + r.supply := by
  obtain ⟨_, _, _, _, _, _, h7, h8, _⟩ := created h
  refine ⟨fun d => ?_, ?_⟩
  · by_cases hd : d = r.denom
    · rw [hd, h7, if_neg hc, Nat.add_zero]
    · rw [(h8 d hd).1]
  · rw [h7, if_pos rfl]

/-- A denomination is created once: after a creation, whatever happens, its description stays and no creation with the same denomination is accepted. -/
theorem created_once {e : Env} {s s' : State} {r : Req} {a : Nat} (h : create e s r = (s', some a)) (ops : List Op) :
    KV.get (run e s' ops).metas r.denom = KV.get s'.metas r.denom ∧ ∀ r', r'.denom = r.denom → (create e (run e s' ops) r').2 = none := by
  obtain ⟨_, h2, _⟩ := created h
  have hm := run_metas (e := e) ops h2
  refine ⟨hm.trans h2.symm, fun r' hr => ?_⟩
  cases hx : (create e (run e s' ops) r').2 with
  | none => rfl
  | some b =>
    obtain ⟨_, _, _, ⟨_, _, h6, _⟩, _⟩ := create_some (s' := (create e (run e s' ops) r').1) (a := b) (by rw [← hx])
    rw [hr, hm] at h6
    cases h6

/-- The full property: after a creation the supply is the amount asked for, for ever. Proved where no coins of the denomination existed before; see `coins_of_others_diluted`. -/
theorem supply_fixed_partial {e : Env} {s s' : State} {r : Req} {a : Nat} (h : create e s r = (s', some a)) (h0 : s.supply r.denom = 0) (ops : List Op) :
    (run e s' ops).supply r.denom = r.supply := by
  obtain ⟨_, h2, _, _, _, h6, _⟩ := created h
  rw [run_supply ops (by rw [h2]; rfl), h6, h0, Nat.zero_add]

/-- A coin that exists without a description can be taken over, if its name could be that of a token: whoever creates a token of that name makes any amount of it,
and those who had coins have the same coins. -/
theorem coins_of_others_diluted {e : Env} (he : Sane e) {s : State} {r : Req} (hr : Acceptable e s r) (ops : List Op) :
    (run e (create e s r).1 ops).supply r.denom = s.supply r.denom + r.supply ∧
      (create e s r).1.bal r.denom r.origin = s.bal r.denom r.origin + r.supply ∧
      ∀ x, x ≠ r.origin → (create e s r).1.bal r.denom x = s.bal r.denom x := by
  obtain ⟨a, ha⟩ := Option.isSome_iff_exists.1 ((create_iff he s r).2 hr)
  have h : create e s r = ((create e s r).1, some a) := by rw [← ha]
  obtain ⟨_, h2, _, _, _, h6, h7, _⟩ := created h
  refine ⟨?_, ?_, fun x hx => ?_⟩
  · rw [run_supply ops (by rw [h2]; rfl), h6]
  · rw [h7, if_pos rfl]
  · rw [h7, if_neg hx, Nat.add_zero]

/-- In every history no coins are held beyond the supply. -/
theorem held_within_supply {e : Env} {s : State} (h : ∀ d, Covers (s.bal d) (s.supply d)) (ops : List Op) (d : Str) :
    Covers ((run e s ops).bal d) ((run e s ops).supply d) := by
  induction ops generalizing s with
  | nil => exact h d
  | cons op ops ih => exact ih (step_covers op h)

/-- In every history the registry stays in order, if the contracts the module creates have different addresses. -/
theorem registry_in_order {e : Env} {s : State} (h : Books e s) (ops : List Op)
    (hi : ∀ i j, i < (run e s ops).seq → j < (run e s ops).seq → e.addrOf i = e.addrOf j → i = j) : Books e (run e s ops) := run_books ops h hi

/-- In every history logos are filed under their hashes, and those of descriptions are there. -/
theorem logos_in_order {e : Env} {s : State} (h : Filed e s) (ht : LogosThere s) (ops : List Op) : Filed e (run e s ops) ∧ LogosThere (run e s ops) := by
  induction ops generalizing s with
  | nil => exact ⟨h, ht⟩
  | cons op ops ih => exact ih (step_filed op h) (step_there op ht)

/-- So the picture shown for a token is the one given by its creator, if no other picture has the same hash. -/
theorem token_shows_its_logo {e : Env} {s s' : State} {r : Req} {a : Nat} (h : create e s r = (s', some a)) (hs : Filed e s) (ht : LogosThere s)
    (hl : r.logo ≠ []) (hne : e.sha r.logo ≠ []) (ops : List Op)
    (hi : ∀ l, KV.get (run e s' ops).logos (e.sha r.logo) = some l → e.sha l.data = e.sha r.logo → l.data = r.logo) :
    ∃ m l, KV.get (run e s' ops).metas r.denom = some m ∧ KV.get (run e s' ops).logos m.logo = some l ∧ l.data = r.logo := by
  have hstep : step e s (.create r false) = s' := by
    unfold step
    dsimp only
    rw [h]
  obtain ⟨f1, f2⟩ := logos_in_order (e := e) hs ht (.create r false :: ops)
  have hrun : run e s (.create r false :: ops) = run e s' ops := by
    show run e (step e s (.create r false)) ops = _
    rw [hstep]
  rw [hrun] at f1 f2
  obtain ⟨_, h2, _⟩ := created h
  have hm := run_metas (e := e) ops h2
  rw [if_neg hl] at hm
  obtain ⟨l, hlg⟩ := Option.isSome_iff_exists.1 (f2 _ _ hm hne)
  exact ⟨_, l, hm, hlg, hi l hlg (f1 _ l hlg).2.1.symm⟩

/-- Storing a picture: it is accepted exactly if its text is at most four thirds of the limit and it is a picture of the right kind. -/
theorem store_iff (e : Env) (s : State) (data : Str) (h : Nat) : (storeLogo e s data h).isSome ↔ 3 * data.length ≤ 4 * s.maxLogo ∧ e.png data = true := by
  by_cases hf : LogoFits e s.maxLogo data
  · rw [storeLogo_some hf]
    exact ⟨fun _ => hf, fun _ => rfl⟩
  · rw [storeLogo_none hf]
    exact ⟨fun h => (nomatch h), fun h => absurd h hf⟩

/-- Anybody can store again what is stored: its date changes to the new height. -/
theorem stored_again_changes_the_date {e : Env} {s : State} {data : Str} {old : Nat} (new : Nat)
    (_ : KV.get s.logos (e.sha data) = some ⟨e.sha data, data, old⟩) (hf : LogoFits e s.maxLogo data) :
    KV.get (step e s (.upload data new)).logos (e.sha data) = some ⟨e.sha data, data, new⟩ := by
  unfold step
  dsimp only
  rw [storeLogo_some hf]
  show KV.get (KV.set s.logos _ _) _ = _
  rw [KV.get_set, if_pos rfl]

/-- Pictures of `n` bytes have texts of `4 * ⌈n / 3⌉` characters. All whose size is at most two bytes below the limit are within the limit of the text, and
nothing larger than the limit is. -/
theorem size_limit (n max : Nat) : (n + 2 ≤ max → 3 * (4 * ((n + 2) / 3)) ≤ 4 * max) ∧ (3 * (4 * ((n + 2) / 3)) ≤ 4 * max → n ≤ max) := by
  omega

/-- A picture exactly as large as allowed is refused unless the limit is a multiple of three; the default limit, 1 MiB, is not. -/
theorem picture_of_the_limit_refused (e : Env) (s : State) (data : Str) (h : Nat) (hm : s.maxLogo % 3 ≠ 0) (hl : data.length = 4 * ((s.maxLogo + 2) / 3)) :
    storeLogo e s data h = none := by
  apply storeLogo_none
  rintro ⟨h1, _⟩
  rw [hl] at h1
  omega

/-- A creation that is refused has stored its logo already: if the contract that asked for it goes on, the logo stays. -/
theorem logo_of_refused_creation_stays {e : Env} {s : State} {r : Req} (hl : r.logo ≠ []) (hf : LogoFits e s.maxLogo r.logo)
    (hd : (KV.get s.metas r.denom).isSome) : (create e s r).2 = none ∧ step e s (.create r false) = s ∧
      KV.get (step e s (.create r true)).logos (e.sha r.logo) = some ⟨e.sha r.logo, r.logo, r.height⟩ := by
  obtain ⟨w1, w2, w3, w4, w5, w6, w7, w8, w9⟩ := withLogo_same e s r.logo r.height
  have hc : create e s r = (withLogo e s r.logo r.height, none) := by
    rcases create_cases e s r with ⟨_, _, hn⟩ | ⟨_, hc⟩
    · exact absurd hf hn
    · rw [hc]
      unfold createTail
      rw [w1, if_pos hd]
      split
      · rfl
      · split <;> rfl
  refine ⟨by rw [hc], ?_, ?_⟩
  · unfold step
    dsimp only
    rw [hc]
    rfl
  · unfold step
    dsimp only
    rw [hc]
    show KV.get (withLogo e s r.logo r.height).logos _ = _
    unfold withLogo
    rw [if_neg hl]
    show KV.get (KV.set s.logos _ _) _ = _
    rw [KV.get_set, if_pos rfl]

/-- A creation that fails when the tokens are made in the contract has used up the name: there is a description, no pair and no coins. -/
theorem failed_creation_takes_the_name {e : Env} (he : Sane e) {s : State} {r : Req} (hb : Books e s) (hr : Acceptable e s { r with mints := true })
    (hf : r.mints = false) : (create e s r).2 = none ∧ (KV.get (step e s (.create r true)).metas r.denom).isSome ∧
      (step e s (.create r true)).denomMap r.denom = none ∧ (step e s (.create r true)).supply = s.supply := by
  obtain ⟨w1, w2, w3, w4, w5, w6, w7, w8, w9⟩ := withLogo_same e s r.logo r.height
  have hk := (checks_iff he r (logoName e r.logo)).2 ⟨hr.name, hr.symbol, hr.denom, hr.differ, hr.supply, hr.decimals⟩
  have hn : KV.get s.metas r.denom = none := hr.new
  have hc : create e s r = ((deploy e (withLogo e s r.logo r.height) (metaOf r (logoName e r.logo))).1, none) := by
    rcases create_cases e s r with ⟨_, hl, hf⟩ | ⟨_, hc⟩
    · exact absurd (hr.logo hl) hf
    · rw [hc]
      unfold createTail
      rw [if_neg (by rw [hk.1]; decide), if_neg hr.origin, w1, hn, if_neg (by decide), if_neg (by rw [hk.2]; decide),
        if_neg (by rw [show r.deploys = true from hr.evm.1]; decide)]
      dsimp only
      rw [if_pos hf]
  refine ⟨by rw [hc], ?_⟩
  unfold step
  dsimp only
  rw [hc]
  refine ⟨?_, ?_, w3⟩
  · show (KV.get (KV.set _ r.denom _) r.denom).isSome
    rw [KV.get_set, if_pos rfl]
    rfl
  · show (withLogo e s r.logo r.height).denomMap r.denom = none
    rw [w6]
    cases hx : s.denomMap r.denom with
    | none => rfl
    | some a =>
      obtain ⟨m, hm', _⟩ := hb.described _ _ hx
      rw [hn] at hm'
      cases hm'

/-- A token created in a call that is taken back is there after the transaction: the creator registers nothing to be undone. -/
theorem reverted_creation_stays {e : Env} (C : PC.Full State) {r : Req} {s' : State} {a : Nat} (h : create e C.rest r = (s', some a)) :
    ∃ s1 s2 s3 s4, PC.SDB.step { ctx := C } .snapshot = some (s1, .nat 0) ∧ runUnregistered s1 (creator e r) = (s2, true) ∧
      s2.step (.revert 0) = some (s3, .done) ∧ s3.commit = some s4 ∧ s4.ctx.rest = s' := by
  have hr : (create e C.rest r).1 = s' := by rw [h]
  have ho : (create e C.rest r).2.isSome = true := by rw [h]; rfl
  refine ⟨_, _, _, _, rfl, Prod.ext rfl ho, rfl, rfl, hr⟩

/-- With the registration of the other built-in contracts it would be gone. -/
theorem registered_creation_would_vanish {e : Env} (C : PC.Full State) {r : Req} {s' : State} {a : Nat} (h : create e C.rest r = (s', some a)) :
    ∃ s1 s2 s3 s4, PC.SDB.step { ctx := C } .snapshot = some (s1, .nat 0) ∧ s1.step (.call (creator e r)) = some (s2, .bool true) ∧
      s2.step (.revert 0) = some (s3, .done) ∧ s3.commit = some s4 ∧ s4.ctx.rest = C.rest := by
  have ho : (create e C.rest r).2.isSome = true := by rw [h]; rfl
  have hs : ∀ b : Bool, C.exist 2054 = b → ∃ s2 s3 s4, PC.SDB.step ({ ctx := C, nextRev := 1, revs := [(0, 0)] } : PC.SDB State) (.call (creator e r)) =
      some (s2, .bool true) ∧ s2.step (.revert 0) = some (s3, .done) ∧ s3.commit = some s4 ∧ s4.ctx.rest = C.rest := by
    intro b hb
    cases b <;>
      simp [PC.SDB.step, PC.SDB.call, PC.SDB.finish, creator, PC.SDB.writable, PC.SDB.dirties, PC.SDB.write, ho, PC.SDB.register, PC.SDB.getOrNew, PC.SDB.lookup,
        PC.SDB.fetch, hb, PC.SDB.append, PC.SDB.put, PC.SDB.load, PC.SDB.revertTo, PC.SDB.undoN, PC.SDB.undo, PC.SDB.commit]
  obtain ⟨s2, s3, s4, h1, h2, h3, h4⟩ := hs _ rfl
  exact ⟨_, s2, s3, s4, rfl, h1, h2, h3, h4⟩

/-! Concrete cases. -/

example : Sane e0 ∧ (create e0 {} gold).2 = some 1000 ∧ (create e0 held50 gold).2 = some 1000 := ⟨e0_sane, by decide +kernel, by decide +kernel⟩

example : Acceptable e0 {} gold ∧ Acceptable e0 held50 gold ∧ ¬ Acceptable e0 {} { gold with decimals := 0 } ∧ ¬ Acceptable e0 {} { gold with symbol := gold.denom } :=
  ⟨(create_iff e0_sane _ _).1 (by decide +kernel), (create_iff e0_sane _ _).1 (by decide +kernel), fun h => absurd h.decimals.1 (by decide), fun h => h.differ rfl⟩

example : ∃ s' a, create e0 {} gold = (s', some a) ∧ gold.caller ≠ gold.origin := by
  obtain ⟨s', a, h⟩ := some_of_isSome (e := e0) (s := {}) (r := gold) (by decide +kernel)
  exact ⟨s', a, h, by decide⟩

example : (run e0 {} [.create gold false, .create silver false, .send gold.denom 1 4 30, .create { silver with denom := gold.denom } false]).denomMap gold.denom = some 1000 ∧
    (run e0 {} [.create gold false, .create silver false]).denomMap silver.denom = some 1002 ∧
    (run e0 {} [.create gold false, .send gold.denom 1 4 30]).bal gold.denom 4 = 30 := by decide +kernel

example : (∀ d, Covers (({} : State).bal d) (({} : State).supply d)) ∧ Books e0 {} ∧ Filed e0 {} ∧ LogosThere {} ∧ ∀ i j, e0.addrOf i = e0.addrOf j → i = j := by
  refine ⟨fun d l hl => ?_, ⟨?_, ?_, ?_, ?_, ?_⟩, ?_, ?_, fun i j h => Nat.add_right_cancel h⟩
  · show (l.map (fun _ => 0)).sum ≤ 0
    clear hl
    induction l with
    | nil => exact Nat.le_refl _
    | cons x l ih => rw [List.map_cons, List.sum_cons, Nat.zero_add]; exact ih
  · exact fun a d h => (nomatch h)
  · exact fun a d h => (nomatch h)
  · exact fun a d h => (nomatch h)
  · exact fun a d h => (nomatch h)
  · exact fun a d h => (nomatch h)
  · exact fun a d h => (nomatch h)
  · exact fun a d h => (nomatch h)

example : LogoFits e0 1048576 gold.logo ∧ e0.sha gold.logo ≠ [] ∧ ∀ t, e0.sha t = e0.sha gold.logo → t = gold.logo :=
  ⟨⟨by decide, by decide⟩, by decide, fun t h => (List.cons.inj h).2⟩

example : (KV.get (run e0 {} [.create gold false]).logos (e0.sha gold.logo)).map (·.createdAt) = some 5 ∧
    (KV.get (run e0 {} [.create gold false, .upload gold.logo 9]).logos (e0.sha gold.logo)).map (·.createdAt) = some 9 := by decide +kernel

example : (1048576 % 3 ≠ 0) ∧ (storeLogo e0 { maxLogo := 5 } [1, 2, 3, 4, 5, 6, 7, 8] 0).isSome = false ∧
    (storeLogo e0 { maxLogo := 6 } [1, 2, 3, 4, 5, 6, 7, 8] 0).isSome = true := by decide +kernel

example : Acceptable e0 {} { { silver with mints := false } with mints := true } := (create_iff e0_sane _ _).1 (by decide +kernel)

end Create
