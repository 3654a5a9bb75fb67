import Verif.Erc20.TokenSpec
/-! # Lemmas about coins as ERC-20 tokens -/
namespace Erc20Token

theorem Face.same {f g : Face} (hb : ∀ a, f.balance a = g.balance a) (ha : ∀ o p, f.allowance o p = g.allowance o p) : f = g := by
  cases f; cases g
  congr 1
  · exact funext hb
  · exact funext fun o => funext (ha o)

/-- Two states with the same grants and time have the same allowances. -/
theorem live_congr {s s' : St} (hg : s'.grants = s.grants) (hn : s'.now = s.now) (o p : Addr) : live s' o p = live s o p := by
  unfold live; rw [hg, hn]

theorem authzAllowance_congr {s s' : St} (hg : s'.grants = s.grants) (hn : s'.now = s.now) (d : Denom) (o p : Addr) :
    authzAllowance s' d o p = authzAllowance s d o p := by
  unfold authzAllowance; rw [live_congr hg hn]

theorem allowance_congr {s s' : St} (hg : s'.grants = s.grants) (hn : s'.now = s.now) (d : Denom) (o p : Addr) :
    allowance s' d o p = allowance s d o p := by
  unfold allowance; rw [authzAllowance_congr hg hn]

/-- The allowance by the live grant. -/
def grantAmount (d : Denom) : Option Grant → Nat
  | none => 0
  | some g => match g.auth with
    | .generic => 0
    | .send limit _ => amountOf limit d

theorem allowance_eq (s : St) (d : Denom) (o p : Addr) : allowance s d o p = if o = p then maxUint else grantAmount d (live s o p) := by
  unfold allowance authzAllowance
  by_cases h : o = p
  · rw [if_pos h, if_pos h]
  · rw [if_neg h, if_neg h]
    cases live s o p with
    | none => rfl
    | some g => cases g with
      | mk a e => cases a <;> rfl

theorem live_set (s : St) (o p : Addr) (g : Grant) (hg : ∀ e, g.expiry = some e → ¬ e < s.now) (a b : Addr) :
    live { s with grants := KV.set s.grants (o, p) g } a b = if a = o ∧ b = p then some g else live s a b := by
  unfold live
  dsimp only
  rw [KV.get_set]
  by_cases h : a = o ∧ b = p
  · rw [if_pos (by rw [h.1, h.2]), if_pos h]
    dsimp only
    cases he : g.expiry with
    | none => rfl
    | some e => exact if_neg (hg e he)
  · rw [if_neg (by intro h'; cases h'; exact h ⟨rfl, rfl⟩), if_neg h]

theorem live_del (s : St) (o p a b : Addr) : live (deleteGrant s o p) a b = if a = o ∧ b = p then none else live s a b := by
  unfold live deleteGrant
  dsimp only
  rw [KV.get_del]
  by_cases h : a = o ∧ b = p
  · rw [if_pos (by rw [h.1, h.2]), if_pos h]
  · rw [if_neg (by intro h'; cases h'; exact h ⟨rfl, rfl⟩), if_neg h]

theorem amountOf_set (L : List (Denom × Nat)) (d d' : Denom) (n : Nat) :
    amountOf (KV.set L d n) d' = if d' = d then n else amountOf L d' := by
  unfold amountOf
  rw [KV.get_set]
  by_cases h : d' = d
  · rw [if_pos h, if_pos h]; rfl
  · rw [if_neg h, if_neg h]

theorem amountOf_del (L : List (Denom × Nat)) (d d' : Denom) :
    amountOf (KV.del L d) d' = if d' = d then 0 else amountOf L d' := by
  unfold amountOf
  rw [KV.get_del]
  by_cases h : d' = d
  · rw [if_pos h, if_pos h]; rfl
  · rw [if_neg h, if_neg h]

theorem amountOf_zero {L : List (Denom × Nat)} (h : isZero L = true) (d : Denom) : amountOf L d = 0 := by
  unfold amountOf
  cases hg : KV.get L d with
  | none => rfl
  | some n =>
    have := List.all_eq_true.1 h _ (KV.mem_of_get hg)
    simpa using this

/-- No generic authorisation is stored that was not stored before. -/
def NoNewGeneric (s s' : St) : Prop :=
  ∀ a b g, KV.get s'.grants (a, b) = some g → g.auth ≠ .generic ∨ KV.get s.grants (a, b) = some g

theorem NoNewGeneric.same {s s' : St} (h : s'.grants = s.grants) : NoNewGeneric s s' := fun a b g hg => .inr (by rw [← h]; exact hg)

theorem NoNewGeneric.trans {s1 s2 s3 : St} (h : NoNewGeneric s1 s2) (h' : NoNewGeneric s2 s3) : NoNewGeneric s1 s3 := fun a b g hg =>
  (h' a b g hg).elim .inl (h a b g)

theorem NoNewGeneric.set (s : St) (o p : Addr) (L : List (Denom × Nat)) (A : List Addr) (e : Option Nat) :
    NoNewGeneric s { s with grants := KV.set s.grants (o, p) ⟨.send L A, e⟩ } := by
  intro a b g hg
  rw [KV.get_set] at hg
  split at hg
  · cases hg; exact .inl (fun h => nomatch h)
  · exact .inr hg

theorem NoNewGeneric.del (s : St) (o p : Addr) : NoNewGeneric s (deleteGrant s o p) := by
  intro a b g hg
  unfold deleteGrant at hg
  rw [KV.get_del] at hg
  split at hg
  · cases hg
  · exact .inr hg

/-- What a change of one grant does to all the allowances: the pair's allowances become those of `g`. -/
structure Regrants (s s' : St) (o p : Addr) (amt : Denom → Nat) : Prop where
  bal : s'.bal = s.bal
  now : s'.now = s.now
  log : s'.log = s.log
  amt : ∀ d, grantAmount d (live s' o p) = amt d
  other : ∀ a b, ¬ (a = o ∧ b = p) → live s' a b = live s a b
  fresh : NoNewGeneric s s'

theorem Regrants.allowance {s s' : St} {o p : Addr} {amt : Denom → Nat} (h : Regrants s s' o p amt) (hne : o ≠ p) (d : Denom) (a b : Addr) :
    allowance s' d a b = if a = o ∧ b = p then amt d else allowance s d a b := by
  rw [allowance_eq, allowance_eq]
  by_cases hab : a = o ∧ b = p
  · rw [if_pos hab, if_neg (by rw [hab.1, hab.2]; exact hne), hab.1, hab.2, h.amt]
  · rw [if_neg hab, h.other a b hab]

theorem saveGrant_regrants {s s' : St} {o p : Addr} {L : List (Denom × Nat)} {A : List Addr} {e : Option Nat}
    (h : saveGrant s o p ⟨.send L A, e⟩ = some s') : Regrants s s' o p (amountOf L) := by
  have key : (∀ x, e = some x → ¬ x < s.now) ∧ s' = { s with grants := KV.set s.grants (o, p) ⟨.send L A, e⟩ } := by
    unfold saveGrant at h
    dsimp only at h
    cases e with
    | none =>
      simp only [Option.some.injEq] at h
      exact ⟨fun x hx => (nomatch hx), h.symm⟩
    | some x =>
      dsimp only at h
      by_cases hx : x ≤ s.now
      · rw [if_pos hx] at h; cases h
      · rw [if_neg hx] at h
        simp only [Option.some.injEq] at h
        refine ⟨fun y hy => ?_, h.symm⟩
        cases hy
        omega
  obtain ⟨he, rfl⟩ := key
  refine ⟨rfl, rfl, rfl, fun d => ?_, fun a b hab => ?_, NoNewGeneric.set _ _ _ _ _ _⟩
  · rw [live_set _ _ _ _ he, if_pos ⟨rfl, rfl⟩]; rfl
  · rw [live_set _ _ _ _ he, if_neg hab]

theorem deleteGrant_regrants (s : St) (o p : Addr) : Regrants s (deleteGrant s o p) o p (fun _ => 0) := by
  refine ⟨rfl, rfl, rfl, fun d => ?_, fun a b hab => ?_, NoNewGeneric.del _ _ _⟩
  · rw [live_del, if_pos ⟨rfl, rfl⟩]; rfl
  · rw [live_del, if_neg hab]

theorem Regrants.congr {s s' : St} {o p : Addr} {f g : Denom → Nat} (h : Regrants s s' o p f) (hfg : ∀ d, f d = g d) : Regrants s s' o p g := by
  have : f = g := funext hfg
  rw [← this]; exact h

/-- The limits after one coin's limit is set. -/
def setAmt (f : Denom → Nat) (d : Denom) (n : Nat) : Denom → Nat := fun d' => if d' = d then n else f d'

theorem updateAuth_regrants {s s' : St} {d : Denom} {o p : Addr} {n : Nat} {L : List (Denom × Nat)} {A : List Addr} {e : Option Nat}
    (h : updateAuth s d o p n L A e = some s') : Regrants s s' o p (setAmt (amountOf L) d n) :=
  (saveGrant_regrants h).congr fun d' => amountOf_set L d d' n

theorem removeLimit_regrants {s s' : St} {d : Denom} {o p : Addr} {L : List (Denom × Nat)} {A : List Addr} {e : Option Nat}
    (h : removeLimit s d o p L A e = some s') : Regrants s s' o p (setAmt (amountOf L) d 0) := by
  unfold removeLimit at h
  cases hg : KV.get L d with
  | none => rw [hg] at h; cases h
  | some x =>
    rw [hg] at h
    dsimp only at h
    by_cases hz : isZero (KV.del L d) = true
    · rw [if_pos hz] at h
      simp only [Option.some.injEq] at h
      subst h
      refine (deleteGrant_regrants s o p).congr fun d' => ?_
      have := amountOf_zero hz d'
      rw [amountOf_del] at this
      exact this.symm
    · rw [if_neg hz] at h
      exact (saveGrant_regrants h).congr fun d' => amountOf_del L d d'

theorem createAuth_regrants {s s' : St} {d : Denom} {o p : Addr} {n : Nat} (h : createAuth s d o p n = some s') :
    Regrants s s' o p (setAmt (fun _ => 0) d n) := by
  refine (saveGrant_regrants h).congr fun d' => ?_
  unfold amountOf setAmt
  rw [KV.get_cons]
  by_cases hd : d' = d
  · subst hd; rw [if_pos rfl, if_pos rfl]; rfl
  · rw [if_neg (fun x => hd x.symm), if_neg hd]; rfl

theorem limitSub_amount {L L' : List (Denom × Nat)} {d : Denom} {n : Nat} (h : limitSub L d n = some L') :
    n ≤ amountOf L d ∧ ∀ d', amountOf L' d' = setAmt (amountOf L) d (amountOf L d - n) d' := by
  unfold limitSub at h
  by_cases h1 : amountOf L d < n
  · rw [if_pos h1] at h; cases h
  · rw [if_neg h1] at h
    refine ⟨by omega, fun d' => ?_⟩
    unfold setAmt
    by_cases h2 : amountOf L d = n
    · rw [if_pos h2] at h
      simp only [Option.some.injEq] at h
      rw [← h, amountOf_del]
      by_cases hd : d' = d
      · rw [if_pos hd, if_pos hd]; omega
      · rw [if_neg hd, if_neg hd]
    · rw [if_neg h2] at h
      simp only [Option.some.injEq] at h
      rw [← h, amountOf_set]

theorem live_notexpired {s : St} {o p : Addr} {g : Grant} (h : live s o p = some g) : ∀ e, g.expiry = some e → ¬ e < s.now := by
  intro e he
  unfold live at h
  cases hk : KV.get s.grants (o, p) with
  | none => rw [hk] at h; cases h
  | some g' =>
    rw [hk] at h
    dsimp only at h
    cases he' : g'.expiry with
    | none =>
      rw [he'] at h
      cases h
      rw [he] at he'; cases he'
    | some x =>
      rw [he'] at h
      dsimp only at h
      by_cases hx : x < s.now
      · rw [if_pos hx] at h; cases h
      · rw [if_neg hx] at h
        cases h
        rw [he] at he'; cases he'
        exact hx

theorem live_stored {s : St} {o p : Addr} {g : Grant} (h : live s o p = some g) : KV.get s.grants (o, p) = some g := by
  unfold live at h
  cases hk : KV.get s.grants (o, p) with
  | none => rw [hk] at h; cases h
  | some g' =>
    rw [hk] at h
    dsimp only at h
    cases he' : g'.expiry with
    | none => rw [he'] at h; exact h
    | some x =>
      rw [he'] at h
      dsimp only at h
      by_cases hx : x < s.now
      · rw [if_pos hx] at h; cases h
      · rw [if_neg hx] at h; exact h

theorem spend_regrants {s s' : St} {d : Denom} {o p dst : Addr} {n : Nat} {L : List (Denom × Nat)} {A : List Addr} {e : Option Nat}
    (he : ∀ x, e = some x → ¬ x < s.now) (h : spend s o p dst d n L A e = some s') :
    n ≤ amountOf L d ∧ Regrants s s' o p (setAmt (amountOf L) d (amountOf L d - n)) := by
  unfold spend at h
  cases hl : limitSub L d n with
  | none => rw [hl] at h; cases h
  | some L' =>
    obtain ⟨hn, ha⟩ := limitSub_amount hl
    rw [hl] at h
    dsimp only at h
    refine ⟨hn, ?_⟩
    split at h
    · cases h
    · split at h
      · rename_i hz
        simp only [Option.some.injEq] at h
        subst h
        refine (deleteGrant_regrants s o p).congr fun d' => ?_
        rw [← ha d', amountOf_zero hz]
      · simp only [Option.some.injEq] at h
        subst h
        refine ⟨rfl, rfl, rfl, fun d' => ?_, fun a b hab => ?_, NoNewGeneric.set _ _ _ _ _ _⟩
        · rw [live_set s o p ⟨.send L' A, e⟩ he, if_pos ⟨rfl, rfl⟩]; exact ha d'
        · rw [live_set s o p ⟨.send L' A, e⟩ he, if_neg hab]

/-- What a send by the bank does. -/
structure Sends (s s' : St) (src dst : Addr) (d : Denom) (n : Nat) : Prop where
  grants : s'.grants = s.grants
  now : s'.now = s.now
  log : s'.log = s.log
  enough : n ≤ s.bal src d
  pos : 0 < n
  bal : ∀ a, s'.bal a d = ((face s d).move src dst n).balance a
  other : ∀ a d', d' ≠ d → s'.bal a d' = s.bal a d'

theorem bankSend_sends {cfg : Cfg} {s s' : St} {src dst : Addr} {d : Denom} {n : Nat} (h : bankSend cfg s src dst d n = some s') :
    Sends s s' src dst d n := by
  unfold bankSend at h
  split at h
  · cases h
  · split at h
    · cases h
    · split at h
      · cases h
      · split at h
        · cases h
        · simp only [Option.some.injEq] at h
          subst h
          refine ⟨rfl, rfl, rfl, by omega, by omega, fun a => ?_, fun a d' hd => ?_⟩
          · simp only [setBal, Face.move, face, balanceOf, and_true]
            split <;> split <;> grind
          · simp only [setBal]
            rw [if_neg (fun h => hd h.2), if_neg (fun h => hd h.2)]

/-- A move of coins by the owner or by a spender (tx.go 77-108). -/
structure Moves (s s' : St) (caller src dst : Addr) (d : Denom) (n : Nat) : Prop where
  now : s'.now = s.now
  log : s'.log = s.log
  enough : n ≤ s.bal src d
  pos : 0 < n
  bal : ∀ a, s'.bal a d = ((face s d).move src dst n).balance a
  otherBal : ∀ a d', d' ≠ d → s'.bal a d' = s.bal a d'
  own : caller = src → s'.grants = s.grants
  amount : caller ≠ src → ∀ L A, (live s src caller).map (·.auth) = some (.send L A) → n ≤ amountOf L d
  amt : caller ≠ src → ∀ L A, (live s src caller).map (·.auth) = some (.send L A) →
    ∀ d', grantAmount d' (live s' src caller) = setAmt (amountOf L) d (amountOf L d - n) d'
  other : ∀ a b, ¬ (a = src ∧ b = caller) → live s' a b = live s a b
  fresh : NoNewGeneric s s'

theorem bankSend_moves {cfg : Cfg} {s s' : St} {src dst : Addr} {d : Denom} {n : Nat} (h : bankSend cfg s src dst d n = some s') :
    Moves s s' src src dst d n := by
  have hs := bankSend_sends h
  exact ⟨hs.now, hs.log, hs.enough, hs.pos, hs.bal, hs.other, fun _ => hs.grants, fun h => absurd rfl h, fun h => absurd rfl h,
    fun a b _ => live_congr hs.grants hs.now a b, .same hs.grants⟩

theorem dispatch_moves {cfg : Cfg} {s s' : St} {src caller dst : Addr} {d : Denom} {n : Nat} (hne : caller ≠ src)
    (h : dispatch cfg s src caller dst d n = some s') : Moves s s' caller src dst d n := by
  unfold dispatch at h
  cases hl : live s src caller with
  | none => rw [hl] at h; cases h
  | some g =>
    rw [hl] at h
    dsimp only at h
    cases ha : g.auth with
    | generic =>
      rw [ha] at h
      have hs := bankSend_sends h
      refine ⟨hs.now, hs.log, hs.enough, hs.pos, hs.bal, hs.other, fun _ => hs.grants, fun _ L A hx => ?_, fun _ L A hx => ?_,
        fun a b _ => live_congr hs.grants hs.now a b, .same hs.grants⟩
      all_goals
        rw [hl] at hx
        simp only [Option.map_some, Option.some.injEq, ha] at hx
        cases hx
    | send L A =>
      rw [ha] at h
      dsimp only at h
      cases hsp : spend s src caller dst d n L A g.expiry with
      | none => rw [hsp] at h; cases h
      | some s1 =>
        rw [hsp] at h
        have hb : bankSend cfg s1 src dst d n = some s' := h
        have hs := bankSend_sends hb
        obtain ⟨hn, hr⟩ := spend_regrants (live_notexpired hl) hsp
        refine ⟨hs.now.trans hr.now, hs.log.trans hr.log, (by rw [← hr.bal]; exact hs.enough), hs.pos, fun a => ?_, fun a d' hd => ?_,
          fun h => absurd h hne, fun _ L' A' hx => ?_, fun _ L' A' hx d' => ?_, fun a b hab => ?_, hr.fresh.trans (.same hs.grants)⟩
        · rw [hs.bal a]
          unfold Face.move face balanceOf
          dsimp only
          rw [hr.bal]
        · rw [hs.other a d' hd, hr.bal]
        · rw [hl] at hx
          simp only [Option.map_some, Option.some.injEq, ha] at hx
          cases hx
          exact hn
        · rw [hl] at hx
          simp only [Option.map_some, Option.some.injEq, ha] at hx
          cases hx
          rw [live_congr hs.grants hs.now, hr.amt]
        · rw [live_congr hs.grants hs.now, hr.other a b hab]

theorem authzAllowance_some {s : St} {d : Denom} {o p : Addr} {L : List (Denom × Nat)} {A : List Addr} {e : Option Nat} {n : Nat}
    (h : authzAllowance s d o p = some (L, A, e, n)) : live s o p = some ⟨.send L A, e⟩ ∧ n = amountOf L d := by
  unfold authzAllowance at h
  cases hl : live s o p with
  | none => rw [hl] at h; cases h
  | some g =>
    rw [hl] at h
    dsimp only at h
    obtain ⟨a, x⟩ := g
    cases a with
    | generic => cases h
    | send L' A' =>
      simp only [Option.some.injEq, Prod.mk.injEq] at h
      obtain ⟨rfl, rfl, rfl, rfl⟩ := h
      exact ⟨rfl, rfl⟩

/-- A move by the token's code, with the limits before it. -/
theorem move_moves {cfg : Cfg} {s s' : St} {d : Denom} {caller src dst : Addr} {n : Nat} (h : move cfg s d caller src dst n = some s') :
    Moves s s' caller src dst d n ∧ (caller ≠ src → ∃ L A e, live s src caller = some ⟨.send L A, e⟩) := by
  unfold move at h
  split at h
  · cases h
  · split at h
    · rename_i _ hc
      subst hc
      exact ⟨bankSend_moves h, fun h => absurd rfl h⟩
    · rename_i _ hne
      cases ha : authzAllowance s d src caller with
      | none => rw [ha] at h; cases h
      | some x =>
        rw [ha] at h
        obtain ⟨L, A, e, m⟩ := x
        exact ⟨dispatch_moves hne h, fun _ => ⟨L, A, e, (authzAllowance_some ha).1⟩⟩

theorem Moves.balance {s s' : St} {caller src dst : Addr} {d : Denom} {n : Nat} (h : Moves s s' caller src dst d n) (a : Addr) :
    balanceOf s' d a = ((face s d).move src dst n).balance a := h.bal a

/-- Allowances after a move. -/
theorem Moves.allowance {s s' : St} {caller src dst : Addr} {d : Denom} {n : Nat} (h : Moves s s' caller src dst d n)
    (hs : caller ≠ src → ∃ L A e, live s src caller = some ⟨.send L A, e⟩) (d' : Denom) (a b : Addr) :
    allowance s' d' a b = if caller ≠ src ∧ d' = d ∧ a = src ∧ b = caller then allowance s d src caller - n else allowance s d' a b := by
  by_cases hc : caller = src
  · rw [if_neg (fun x => x.1 hc)]
    exact allowance_congr (h.own hc) h.now d' a b
  · obtain ⟨L, A, e, hl⟩ := hs hc
    have hm : (live s src caller).map (·.auth) = some (.send L A) := by rw [hl]; rfl
    by_cases hab : a = src ∧ b = caller
    · obtain ⟨rfl, rfl⟩ := hab
      rw [allowance_eq, if_neg (fun x => hc x.symm), h.amt hc L A hm]
      unfold setAmt
      by_cases hd : d' = d
      · rw [if_pos hd, if_pos ⟨hc, hd, rfl, rfl⟩, allowance_eq, if_neg (fun x => hc x.symm), hl]; rfl
      · rw [if_neg hd, if_neg (fun x => hd x.2.1), allowance_eq, if_neg (fun x => hc x.symm), hl]; rfl
    · rw [if_neg (fun x => hab x.2.2), allowance_eq, allowance_eq, h.other a b hab]

theorem Moves.permitted {s s' : St} {caller src dst : Addr} {d : Denom} {n : Nat} (h : Moves s s' caller src dst d n)
    (hs : caller ≠ src → ∃ L A e, live s src caller = some ⟨.send L A, e⟩) (hc : caller ≠ src) : n ≤ Erc20Token.allowance s d src caller := by
  obtain ⟨L, A, e, hl⟩ := hs hc
  have hm : (live s src caller).map (·.auth) = some (.send L A) := by rw [hl]; rfl
  rw [allowance_eq, if_neg (fun x => hc x.symm), hl]
  exact h.amount hc L A hm

theorem face_emit (s : St) (e : Event) (d : Denom) : face (emit s e) d = face s d := rfl

/-- The change of one allowance of one token, of the pair of caller and spender. -/
structure Sets (s s' : St) (d : Denom) (o p : Addr) (n : Nat) : Prop where
  ne : o ≠ p
  bal : s'.bal = s.bal
  now : s'.now = s.now
  log : s'.log = s.log
  allow : ∀ d' a b, Erc20Token.allowance s' d' a b = if d' = d ∧ a = o ∧ b = p then n else Erc20Token.allowance s d' a b
  fresh : NoNewGeneric s s'

theorem Regrants.sets {s s' : St} {o p : Addr} {amt : Denom → Nat} (hne : o ≠ p) {d : Denom} {n : Nat}
    (h : Regrants s s' o p (setAmt amt d n)) (hl : ∀ d', amt d' = grantAmount d' (live s o p)) : Sets s s' d o p n := by
  refine ⟨hne, h.bal, h.now, h.log, fun d' a b => ?_, h.fresh⟩
  rw [h.allowance hne]
  unfold setAmt
  by_cases hab : a = o ∧ b = p
  · rw [if_pos hab]
    by_cases hd : d' = d
    · rw [if_pos hd, if_pos ⟨hd, hab⟩]
    · rw [if_neg hd, if_neg (fun x => hd x.1), hl, allowance_eq, hab.1, hab.2, if_neg hne]
  · rw [if_neg hab, if_neg (fun x => hab x.2)]

theorem approveChange_sets {s s' : St} {d : Denom} {o p : Addr} {n : Nat} (h : approveChange s d o p n = some s') : Sets s s' d o p n := by
  unfold approveChange at h
  by_cases hne : p = o
  · rw [if_pos hne] at h; cases h
  · rw [if_neg hne] at h
    have hop : o ≠ p := fun x => hne x.symm
    cases hl : live s o p with
    | none =>
      rw [hl] at h
      dsimp only at h
      by_cases hn : n = 0
      · rw [if_pos hn] at h
        simp only [Option.some.injEq] at h
        subst h
        refine ⟨hop, rfl, rfl, rfl, fun d' a b => ?_, .same rfl⟩
        by_cases hx : d' = d ∧ a = o ∧ b = p
        · rw [if_pos hx, allowance_eq, hx.2.1, hx.2.2, if_neg hop, hl, hn]; rfl
        · rw [if_neg hx]
      · rw [if_neg hn] at h
        exact (createAuth_regrants h).sets hop (fun d' => by rw [hl]; rfl)
    | some g =>
      rw [hl] at h
      dsimp only at h
      obtain ⟨a, e⟩ := g
      cases a with
      | generic => cases h
      | send L A =>
        dsimp only at h
        by_cases hn : n = 0
        · rw [if_pos hn] at h
          subst hn
          exact (removeLimit_regrants h).sets hop (fun d' => by rw [hl]; rfl)
        · rw [if_neg hn] at h
          exact (updateAuth_regrants h).sets hop (fun d' => by rw [hl]; rfl)

theorem decreaseChange_sets {s s' : St} {d : Denom} {o p : Addr} {n : Nat} {L : List (Denom × Nat)} {A : List Addr} {e : Option Nat}
    (hop : o ≠ p) (hl : live s o p = some ⟨.send L A, e⟩) (h : decreaseChange s d o p n L A e = some s') :
    n ≤ amountOf L d ∧ Sets s s' d o p (amountOf L d - n) := by
  unfold decreaseChange at h
  by_cases h1 : n < amountOf L d
  · rw [if_pos h1] at h
    exact ⟨by omega, (updateAuth_regrants h).sets hop (fun d' => by rw [hl]; rfl)⟩
  · rw [if_neg h1] at h
    by_cases h2 : n = amountOf L d
    · rw [if_pos h2] at h
      refine ⟨by omega, ?_⟩
      have : amountOf L d - n = 0 := by omega
      rw [this]
      exact (removeLimit_regrants h).sets hop (fun d' => by rw [hl]; rfl)
    · rw [if_neg h2] at h; cases h

theorem emitMap {f : Option St} {e : Event} {s' : St} (h : f.map (fun x => emit x e) = some s') : ∃ s1, f = some s1 ∧ s' = emit s1 e := by
  cases f with
  | none => cases h
  | some s1 => exact ⟨s1, rfl, by simpa using h.symm⟩

theorem increase_sets {cfg : Cfg} {s s' : St} {d : Denom} {o p : Addr} {n : Nat} (h : increaseAllowance cfg s d o p n = some s') :
    ∃ s1, s' = emit s1 (.approval (cfg.tokenOf d) (cfg.tokenOf d) p (allowance s d o p + n)) ∧ 0 < n ∧
      (n ≤ maxUint → allowance s d o p + n ≤ maxUint) ∧ Sets s s1 d o p (allowance s d o p + n) := by
  unfold increaseAllowance at h
  by_cases hne : p = o
  · rw [if_pos hne] at h; cases h
  · rw [if_neg hne] at h
    have hop : o ≠ p := fun x => hne x.symm
    by_cases hn : n = 0
    · rw [if_pos hn] at h; cases h
    · rw [if_neg hn] at h
      have hal : allowance s d o p = grantAmount d (live s o p) := by rw [allowance_eq, if_neg hop]
      cases hl : live s o p with
      | none =>
        rw [hl] at h hal
        obtain ⟨s1, h1, rfl⟩ := emitMap h
        have h0 : allowance s d o p = 0 := hal
        rw [h0, Nat.zero_add]
        exact ⟨s1, rfl, by omega, id, (createAuth_regrants h1).sets hop (fun d' => by rw [hl]; rfl)⟩
      | some g =>
        obtain ⟨a, e⟩ := g
        rw [hl] at h hal
        cases a with
        | generic => cases h
        | send L A =>
          dsimp only at h
          by_cases hm : maxUint < amountOf L d + n
          · rw [if_pos hm] at h; cases h
          · rw [if_neg hm] at h
            obtain ⟨s1, h1, rfl⟩ := emitMap h
            have h0 : allowance s d o p = amountOf L d := hal
            rw [h0]
            exact ⟨s1, rfl, by omega, fun _ => Nat.le_of_not_lt hm, (updateAuth_regrants h1).sets hop (fun d' => by rw [hl]; rfl)⟩

theorem decrease_sets {cfg : Cfg} {s s' : St} {d : Denom} {o p : Addr} {n : Nat} (h : decreaseAllowance cfg s d o p n = some s') :
    ∃ s1, s' = emit s1 (.approval (cfg.tokenOf d) (cfg.tokenOf d) p (allowance s d o p - n)) ∧ 0 < n ∧
      n ≤ allowance s d o p ∧ Sets s s1 d o p (allowance s d o p - n) := by
  unfold decreaseAllowance at h
  by_cases hne : p = o
  · rw [if_pos hne] at h; cases h
  · rw [if_neg hne] at h
    have hop : o ≠ p := fun x => hne x.symm
    by_cases hn : n = 0
    · rw [if_pos hn] at h; cases h
    · rw [if_neg hn] at h
      have hal : allowance s d o p = grantAmount d (live s o p) := by rw [allowance_eq, if_neg hop]
      cases ha : authzAllowance s d o p with
      | none => rw [ha] at h; cases h
      | some x =>
        obtain ⟨L, A, e, m⟩ := x
        rw [ha] at h
        obtain ⟨hl, hm⟩ := authzAllowance_some ha
        obtain ⟨s1, h1, rfl⟩ := emitMap h
        obtain ⟨hle, hs⟩ := decreaseChange_sets hop hl h1
        rw [hl] at hal
        have h0 : allowance s d o p = amountOf L d := hal
        rw [h0, hm]
        exact ⟨s1, rfl, by omega, hle, hs⟩

theorem Sets.face {s s' : St} {d : Denom} {o p : Addr} {n : Nat} (h : Sets s s' d o p n) :
    Erc20Token.face s' d = (Erc20Token.face s d).allow o p n ∧ ∀ d', d' ≠ d → Erc20Token.face s' d' = Erc20Token.face s d' := by
  refine ⟨Face.same (fun a => ?_) (fun a b => ?_), fun d' hd => Face.same (fun a => ?_) (fun a b => ?_)⟩
  · show s'.bal a d = s.bal a d
    rw [h.bal]
  · show Erc20Token.allowance s' d a b = if a = o ∧ b = p then n else Erc20Token.allowance s d a b
    rw [h.allow]
    by_cases hx : a = o ∧ b = p
    · rw [if_pos ⟨rfl, hx⟩, if_pos hx]
    · rw [if_neg (fun y => hx y.2), if_neg hx]
  · show s'.bal a d' = s.bal a d'
    rw [h.bal]
  · show Erc20Token.allowance s' d' a b = Erc20Token.allowance s d' a b
    rw [h.allow, if_neg (fun y => hd y.1)]

/-- What a transfer does to the faces of the tokens. -/
theorem Moves.face {s s' : St} {caller src dst : Addr} {d : Denom} {n : Nat} (h : Moves s s' caller src dst d n)
    (hs : caller ≠ src → ∃ L A e, live s src caller = some ⟨.send L A, e⟩) :
    Erc20Token.face s' d = (if caller = src then (Erc20Token.face s d).move src dst n
      else ((Erc20Token.face s d).move src dst n).allow src caller (Erc20Token.allowance s d src caller - n)) ∧
    ∀ d', d' ≠ d → Erc20Token.face s' d' = Erc20Token.face s d' := by
  refine ⟨Face.same (fun a => ?_) (fun a b => ?_), fun d' hd => Face.same (fun a => ?_) (fun a b => ?_)⟩
  · show balanceOf s' d a = _
    rw [h.balance]
    by_cases hc : caller = src
    · rw [if_pos hc]
    · rw [if_neg hc]; rfl
  · show Erc20Token.allowance s' d a b = _
    rw [h.allowance hs]
    by_cases hc : caller = src
    · rw [if_pos hc, if_neg (fun x => x.1 hc)]; rfl
    · rw [if_neg hc]
      show _ = if a = src ∧ b = caller then _ else _
      by_cases hx : a = src ∧ b = caller
      · rw [if_pos hx, if_pos ⟨hc, rfl, hx⟩]
      · rw [if_neg hx, if_neg (fun y => hx y.2.2)]; rfl
  · exact h.otherBal a d' hd
  · show Erc20Token.allowance s' d' a b = Erc20Token.allowance s d' a b
    rw [h.allowance hs, if_neg (fun y => hd y.2.1)]

end Erc20Token
