import Verif.Chronos.Cron
import Verif.Addr.AddrProps

/-!
# Helper lemmas about scheduled calls
-/

namespace Chronos
open Addr

/-- Wallet addresses: twenty bytes, different for different identifiers (`uint64`). -/
structure Wallets (wallet : Nat → List Nat) : Prop where
  addr : ∀ i, i < 2 ^ 64 → IsAddress (wallet i)
  inj : ∀ i j, i < 2 ^ 64 → j < 2 ^ 64 → wallet i = wallet j → i = j

/-- What is assumed about the rest of the chain: nobody has a key for a wallet, so other
transactions never take coins from one and none signs a request; accounts do not disappear; time
is positive. -/
def Fair (wallet : Nat → List Nat) (s : State) : Op → Prop
  | .create r => ∀ o, fromBech32 accHrp r.sender = some o → ∀ i, i < 2 ^ 64 → o ≠ wallet i
  | .world bal accounts _ height time =>
    (∀ i, i < 2 ^ 64 → s.bal (wallet i) ≤ bal (wallet i)) ∧
    (∀ a, s.accounts a = true → accounts a = true) ∧ s.height ≤ height ∧ 0 < time
  | _ => True

/-- States after `n` operations. -/
inductive Reach (wallet : Nat → List Nat) : Nat → State → Prop
  | init (bal : List Nat → Nat) (accounts code : List Nat → Bool) (height time : Nat) (ht : 0 < time) :
    Reach wallet 0 (State.init bal accounts code height time)
  | step {n : Nat} {s : State} (op : Op) : Reach wallet n s → Fair wallet s op →
    Reach wallet (n + 1) (step wallet s op)

/-- `m` coins go from `src` to `dst` and nothing else happens to the balances. -/
def Moved (b b' : List Nat → Nat) (src dst : List Nat) (m : Nat) : Prop :=
  m ≤ b src ∧ ∀ a, b' a + (if a = src then m else 0) = b a + (if a = dst then m else 0)

theorem send_moved {b b' : List Nat → Nat} {src dst : List Nat} {amount : Int}
    (h : send b src dst amount = some b') : 0 ≤ amount ∧ Moved b b' src dst amount.toNat := by
  unfold send at h
  split at h
  · cases h
  · split at h
    · cases h
    · injection h with h
      subst h
      refine ⟨by omega, by omega, fun a => ?_⟩
      dsimp only
      by_cases h1 : a = dst
      · by_cases h2 : a = src
        · subst h1; subst h2; simp only [if_true]; omega
        · rw [if_pos h1, if_neg h2, if_neg h2, if_pos h1]; rfl
      · by_cases h2 : a = src
        · rw [if_neg h1, if_pos h2, if_pos h2, if_neg h1]
          subst h2; omega
        · rw [if_neg h1, if_neg h2, if_neg h2, if_neg h1]

theorem send_ok {b : List Nat → Nat} {src : List Nat} (dst : List Nat) {m : Nat} (h : m ≤ b src) :
    ∃ b', send b src dst m = some b' := by
  unfold send
  rw [if_neg (by omega), if_neg (by simpa using h)]
  exact ⟨_, rfl⟩

/-! ## Creation, taken apart -/

theorem create_facts {wallet : Nat → List Nat} {s s' : State} {r : Create}
    (h : create wallet s r = some s') :
    r.valid = true ∧ r.owner = r.sender ∧ KV.get s.crons s.id = none ∧ r.checked s = true ∧
    ∃ b bal, balanceOf s r.owner = some b ∧ r.amount ≤ (b : Int) ∧
      inTransfer { s with
          nextId := some (bump s.id)
          accounts := fun a => if a = wallet s.id then true else s.accounts a }
        r.owner (accString (wallet s.id)) r.amount = some bal ∧
      s' = addCron { s with
          nextId := some (bump s.id)
          accounts := fun a => if a = wallet s.id then true else s.accounts a
          bal := bal } (r.cron s.id s.height (accString (wallet s.id))) := by
  unfold create at h
  split at h
  · cases h
  · rename_i hv
    split at h
    · cases h
    · rename_i ho
      split at h
      · cases h
      · rename_i hn
        split at h
        · cases h
        · rename_i b hb
          split at h
          · cases h
          · rename_i hlt
            split at h
            · cases h
            · rename_i hc
              dsimp only at h
              split at h
              · cases h
              · rename_i bal ht
                injection h with h
                refine ⟨by simpa using hv, Decidable.not_not.mp ho, ?_, by simpa using hc, b, bal, hb,
                  by omega, ht, h.symm⟩
                cases hg : KV.get s.crons s.id
                · rfl
                · rw [hg] at hn; exact absurd rfl hn

theorem valid_owner {r : Create} (h : r.valid = true) : ∃ o, fromBech32 accHrp r.owner = some o := by
  unfold Create.valid at h
  rw [Bool.and_eq_true, Bool.and_eq_true, Bool.and_eq_true] at h
  exact Option.isSome_iff_exists.mp h.1.1.1

theorem fromBech32_acc {a : List Nat} (h : IsAddress a) : fromBech32 accHrp (accString a) = some a :=
  fromBech32_encode accHrp_good h

/-- The deposit moves from the owner to the wallet. -/
theorem inTransfer_moved {s : State} {owner : Str} {w o : List Nat} {amount : Int} {bal : List Nat → Nat}
    {b : Nat} (hw : IsAddress w) (ho : fromBech32 accHrp owner = some o)
    (hb : balanceOf s owner = some b) (hle : amount ≤ (b : Int))
    (h : inTransfer s owner (accString w) amount = some bal) :
    Moved s.bal bal o w amount.toNat := by
  unfold inTransfer at h
  rw [hb] at h
  dsimp only at h
  split at h
  · rw [ho, fromBech32_acc hw] at h
    exact (send_moved h).2
  · injection h with h
    subst h
    have : amount.toNat = 0 := by omega
    rw [this]
    exact ⟨Nat.zero_le _, fun a => by simp⟩

/-- Making an account exist changes no balance that is read. -/
theorem balanceOf_mono {s : State} {t : Str} {b : Nat} (n : Option Nat) (w : List Nat)
    (h : balanceOf s t = some b) :
    balanceOf { s with nextId := n, accounts := fun a => if a = w then true else s.accounts a } t = some b := by
  unfold balanceOf at h ⊢
  split at h
  · rename_i ha
    dsimp only
    rw [if_pos]
    · exact h
    · rw [ha]; split <;> rfl
  · cases h

/-! ## Removal, taken apart -/

/-- What removing a record does. -/
theorem removeQueue_frame (s : State) (c : Cron) :
    (removeQueue s c).bal = s.bal ∧ (removeQueue s c).accounts = s.accounts ∧
    (removeQueue s c).code = s.code ∧ (removeQueue s c).height = s.height ∧
    (removeQueue s c).time = s.time ∧ (removeQueue s c).archived = s.archived ∧
    (removeQueue s c).byAddress = s.byAddress ∧ (removeQueue s c).byOwner = s.byOwner ∧
    (removeQueue s c).data = s.data ∧ (removeQueue s c).nextId = s.nextId ∧
    (removeQueue s c).count = s.count ∧
    ((removeQueue s c).crons = s.crons ∨
      (removeQueue s c).crons = KV.set s.crons c.id { c with queueTs := -1 }) := by
  unfold removeQueue
  split
  · exact ⟨rfl, rfl, rfl, rfl, rfl, rfl, rfl, rfl, rfl, rfl, rfl, Or.inl rfl⟩
  · split
    · exact ⟨rfl, rfl, rfl, rfl, rfl, rfl, rfl, rfl, rfl, rfl, rfl, Or.inl rfl⟩
    · exact ⟨rfl, rfl, rfl, rfl, rfl, rfl, rfl, rfl, rfl, rfl, rfl, Or.inr rfl⟩
    · exact ⟨rfl, rfl, rfl, rfl, rfl, rfl, rfl, rfl, rfl, rfl, rfl, Or.inr rfl⟩

theorem del_set {α : Type} (m : List (Nat × α)) (k : Nat) (v : α) :
    KV.del (KV.set m k v) k = KV.del m k := by
  unfold KV.set KV.del
  rw [List.filter_cons]
  simp

theorem retire_frame (s : State) (c : Cron) :
    (retire s c).bal = s.bal ∧ (retire s c).accounts = s.accounts ∧
    (retire s c).height = s.height ∧ (retire s c).time = s.time ∧
    (retire s c).archived = KV.set s.archived c.id c ∧
    (retire s c).byAddress = s.byAddress ∧ (retire s c).byOwner = s.byOwner ∧
    (retire s c).nextId = s.nextId ∧ (retire s c).count = s.count - 1 ∧
    (retire s c).crons = KV.del s.crons c.id := by
  unfold retire
  split
  · obtain ⟨h1, h2, h3, h4, h5, h6, h7, h8, h9, h10, h11, h12⟩ := removeQueue_frame s c
    refine ⟨h1, h2, h4, h5, by dsimp only; rw [h6], h7, h8, h10, by dsimp only; rw [h11], ?_⟩
    dsimp only
    rcases h12 with h | h
    · rw [h]
    · rw [h, del_set]
  · exact ⟨rfl, rfl, rfl, rfl, rfl, rfl, rfl, rfl, rfl, rfl⟩

theorem removeCron_facts {s s' : State} {id : Nat} {o : List Nat} (h : removeCron s id o = some s') :
    ∃ c, KV.get s.crons id = some c ∧ c.owner = accString o ∧
      ((0 < cronBalance s c ∧ ∃ bal, outTransfer s c = some bal ∧ s' = retire { s with bal := bal } c) ∨
       (cronBalance s c = 0 ∧ s' = retire s c)) := by
  unfold removeCron at h
  split at h
  · cases h
  · rename_i c hc
    split at h
    · cases h
    · rename_i ho
      refine ⟨c, hc, Decidable.not_not.mp ho, ?_⟩
      split at h
      · rename_i hp
        split at h
        · cases h
        · rename_i bal hb
          injection h with h
          exact Or.inl ⟨hp, bal, hb, h.symm⟩
      · rename_i hp
        injection h with h
        exact Or.inr ⟨by omega, h.symm⟩

theorem cancel_facts {s s' : State} {sender owner : Str} {id : Nat}
    (h : cancel s sender owner id = some s') :
    ∃ c o, KV.get s.crons id = some c ∧ c.owner = sender ∧ fromBech32 accHrp owner = some o ∧
      removeCron s id o = some s' := by
  unfold cancel at h
  split at h
  · cases h
  · rename_i c hc
    split at h
    · cases h
    · rename_i hs
      split at h
      · cases h
      · rename_i o ho
        exact ⟨c, o, hc, Decidable.not_not.mp hs, ho, h⟩

/-! ## The invariant -/

/-- A record in order. -/
structure Good (wallet : Nat → List Nat) (s : State) (k : Nat) (c : Cron) : Prop where
  id : c.id = k
  pos : 1 ≤ k
  lt : k < s.id
  address : c.address = accString (wallet k)
  account : s.accounts (wallet k) = true
  owner : ∃ o, fromBech32 accHrp c.owner = some o ∧ ∀ i, i < 2 ^ 64 → o ≠ wallet i
  executed : c.executed = 0
  fees : c.feesPaid = 0

structure Inv (wallet : Nat → List Nat) (s : State) : Prop where
  dist : KV.Distinct s.crons
  live : ∀ k c, KV.get s.crons k = some c → Good wallet s k c
  past : ∀ k c, KV.get s.archived k = some c → KV.get s.crons k = none ∧ 1 ≤ k ∧ k < s.id
  all : ∀ k, 1 ≤ k → k < s.id → (∃ c, KV.get s.crons k = some c) ∨ (∃ c, KV.get s.archived k = some c)
  addr : ∀ k, 1 ≤ k → k < s.id → KV.get s.byAddress (accString (wallet k)) = some k
  count : s.count = s.crons.length
  pos : 1 ≤ s.id
  time : 0 < s.time

theorem length_set_new {α : Type} {m : List (Nat × α)} {k : Nat} (v : α) (h : KV.get m k = none) :
    (KV.set m k v).length = m.length + 1 := by
  unfold KV.set
  rw [KV.del_of_get_none h]; rfl

theorem length_del {α : Type} {m : List (Nat × α)} {k : Nat} {v : α} (hd : KV.Distinct m)
    (h : KV.get m k = some v) : (KV.del m k).length + 1 = m.length := by
  have := (KV.perm_of_get hd h).length_eq
  rw [this]; rfl

theorem length_set_old {α : Type} {m : List (Nat × α)} {k : Nat} {v : α} (w : α) (hd : KV.Distinct m)
    (h : KV.get m k = some v) : (KV.set m k w).length = m.length := by
  have := length_del hd h
  unfold KV.set
  rw [List.length_cons]; exact this

theorem accString_inj {a b : List Nat} (ha : IsAddress a) (hb : IsAddress b)
    (h : accString a = accString b) : a = b := by
  have h1 := fromBech32_acc ha
  rw [h, fromBech32_acc hb] at h1
  exact (Option.some.inj h1).symm

theorem bump_eq {n : Nat} (h : n + 1 < 2 ^ 64) : bump n = n + 1 := if_pos h

theorem init_inv (wallet : Nat → List Nat) (bal : List Nat → Nat) (accounts code : List Nat → Bool)
    (height time : Nat) (ht : 0 < time) : Inv wallet (State.init bal accounts code height time) where
  dist := List.nodup_nil
  live := fun _ _ h => by cases h
  past := fun _ _ h => by cases h
  all := fun k h1 h2 => absurd h2 (by show ¬ k < 1; omega)
  addr := fun k h1 h2 => absurd h2 (by show ¬ k < 1; omega)
  count := rfl
  pos := Nat.le_refl 1
  time := ht

theorem create_inv {wallet : Nat → List Nat} (hw : Wallets wallet) {s s' : State} {r : Create}
    (hi : Inv wallet s) (hid : s.id + 1 < 2 ^ 64) (hf : Fair wallet s (.create r))
    (h : create wallet s r = some s') : Inv wallet s' ∧ s'.id = s.id + 1 := by
  obtain ⟨hv, ho, hn, _, b, bal, _, _, _, rfl⟩ := create_facts h
  obtain ⟨o, howner⟩ := valid_owner hv
  have hids : ∀ x : State, x.nextId = some (bump s.id) → x.id = s.id + 1 := fun x hx => by
    unfold State.id; rw [hx, bump_eq hid]; rfl
  have hid' : (addCron { s with
          nextId := some (bump s.id)
          accounts := fun a => if a = wallet s.id then true else s.accounts a
          bal := bal } (r.cron s.id s.height (accString (wallet s.id)))).id = s.id + 1 := hids _ rfl
  have hcid : (r.cron s.id s.height (accString (wallet s.id))).id = s.id := rfl
  refine ⟨⟨?_, ?_, ?_, ?_, ?_, ?_, ?_, hi.time⟩, hid'⟩
  · exact KV.distinct_set hi.dist _ _
  · intro k c hk
    have hk : KV.get (KV.set s.crons s.id (r.cron s.id s.height (accString (wallet s.id)))) k = some c := hk
    rw [KV.get_set] at hk
    split at hk
    · rename_i e
      injection hk with hk
      subst hk; subst e
      exact ⟨rfl, hi.pos, by rw [hid']; exact Nat.lt_succ_self _, rfl, if_pos rfl,
        ⟨o, howner, hf o (by rw [← ho]; exact howner)⟩, rfl, rfl⟩
    · obtain ⟨g1, g2, g3, g4, g5, g6, g7, g8⟩ := hi.live k c hk
      refine ⟨g1, g2, by rw [hid']; omega, g4, ?_, g6, g7, g8⟩
      show (if wallet k = wallet s.id then true else s.accounts (wallet k)) = true
      rw [g5]; split <;> rfl
  · intro k c hk
    obtain ⟨p1, p2, p3⟩ := hi.past k c hk
    refine ⟨?_, p2, by rw [hid']; omega⟩
    show KV.get (KV.set s.crons s.id _) k = none
    rw [KV.get_set, if_neg (by omega), p1]
  · intro k h1 h2
    rw [hid'] at h2
    by_cases e : k = s.id
    · left
      refine ⟨r.cron s.id s.height (accString (wallet s.id)), ?_⟩
      show KV.get (KV.set s.crons s.id _) k = _
      rw [KV.get_set, if_pos e]
    · rcases hi.all k h1 (by omega) with ⟨c, hc⟩ | hc
      · left
        refine ⟨c, ?_⟩
        show KV.get (KV.set s.crons s.id _) k = _
        rw [KV.get_set, if_neg e, hc]
      · exact Or.inr hc
  · intro k h1 h2
    rw [hid'] at h2
    show KV.get (KV.set s.byAddress (accString (wallet s.id)) s.id) (accString (wallet k)) = some k
    rw [KV.get_set]
    by_cases e : k = s.id
    · rw [e, if_pos rfl]
    · rw [if_neg, hi.addr k h1 (by omega)]
      intro he
      have := accString_inj (hw.addr k (by omega)) (hw.addr s.id (by omega)) he
      exact e (hw.inj k s.id (by omega) (by omega) this)
  · show s.count + 1 = ((KV.set s.crons s.id _).length : Int)
    rw [length_set_new _ hn, hi.count]; rfl
  · rw [hid']; omega

theorem set_crons_inv {wallet : Nat → List Nat} {s : State} {k : Nat} {c c' : Cron} (hi : Inv wallet s)
    (hc : KV.get s.crons k = some c) (hid : c'.id = c.id) (ha : c'.address = c.address)
    (ho : c'.owner = c.owner) (he : c'.executed = c.executed) (hf : c'.feesPaid = c.feesPaid)
    (q : List (Nat × List (Nat × Nat))) (d : List (Nat × Nat)) :
    Inv wallet { s with crons := KV.set s.crons c.id c', queue := q, data := d } := by
  have hg := hi.live k c hc
  have hk : c.id = k := hg.id
  rw [hk] at hid
  refine ⟨KV.distinct_set hi.dist _ _, ?_, ?_, ?_, hi.addr, ?_, hi.pos, hi.time⟩
  · intro j x hx
    have hx : KV.get (KV.set s.crons c.id c') j = some x := hx
    rw [KV.get_set, hk] at hx
    split at hx
    · rename_i e
      injection hx with hx
      subst hx; subst e
      exact ⟨hid, hg.pos, hg.lt, by rw [ha]; exact hg.address, hg.account, by rw [ho]; exact hg.owner,
        by rw [he]; exact hg.executed, by rw [hf]; exact hg.fees⟩
    · obtain ⟨g1, g2, g3, g4, g5, g6, g7, g8⟩ := hi.live j x hx
      exact ⟨g1, g2, g3, g4, g5, g6, g7, g8⟩
  · intro j x hx
    obtain ⟨p1, p2, p3⟩ := hi.past j x hx
    refine ⟨?_, p2, p3⟩
    show KV.get (KV.set s.crons c.id c') j = none
    rw [KV.get_set, if_neg, p1]
    intro e
    rw [e, hk, hc] at p1
    cases p1
  · intro j h1 h2
    rcases hi.all j h1 h2 with ⟨x, hx⟩ | hx
    · left
      show ∃ x, KV.get (KV.set s.crons c.id c') j = some x
      rw [KV.get_set]
      split
      · exact ⟨_, rfl⟩
      · exact ⟨x, hx⟩
    · exact Or.inr hx
  · show s.count = ((KV.set s.crons c.id c').length : Int)
    rw [length_set_old c' hi.dist (by rw [hk]; exact hc), hi.count]

theorem callback_inv {wallet : Nat → List Nat} {s : State} (hi : Inv wallet s) (id data : Nat) :
    Inv wallet (callback s id data) := by
  have h1 : ∀ d, Inv wallet { s with data := d } := fun d =>
    ⟨hi.dist, fun k c h => by
      obtain ⟨g1, g2, g3, g4, g5, g6, g7, g8⟩ := hi.live k c h
      exact ⟨g1, g2, g3, g4, g5, g6, g7, g8⟩, hi.past, hi.all, hi.addr, hi.count, hi.pos, hi.time⟩
  unfold callback
  dsimp only
  split
  · exact h1 _
  · rename_i c hc
    split
    · exact h1 _
    · exact set_crons_inv (c' := { c with queueTs := s.time }) hi hc rfl rfl rfl rfl rfl _ _

theorem update_inv {wallet : Nat → List Nat} {s s' : State} {r : Update} (hi : Inv wallet s)
    (h : update s r = some s') : Inv wallet s' := by
  unfold update at h
  split at h
  · cases h
  · rename_i c hc
    split at h
    · cases h
    · injection h with h
      subst h
      exact set_crons_inv (c' := { c with
        frequency := r.frequency, expiration := r.expiration, gasLimit := r.gasLimit,
        maxGasPrice := r.maxGasPrice }) hi hc rfl rfl rfl rfl rfl s.queue s.data

theorem retire_inv {wallet : Nat → List Nat} {s : State} {k : Nat} {c : Cron} (hi : Inv wallet s)
    (hc : KV.get s.crons k = some c) : Inv wallet (retire s c) := by
  have hg := hi.live k c hc
  have hk : c.id = k := hg.id
  obtain ⟨_, h2, _, ht, h3, h4, _, h5, h6, h7⟩ := retire_frame s c
  have hid : (retire s c).id = s.id := by unfold State.id; rw [h5]
  refine ⟨?_, ?_, ?_, ?_, ?_, ?_, by rw [hid]; exact hi.pos, by rw [ht]; exact hi.time⟩
  · rw [h7]; exact KV.distinct_del hi.dist _
  · intro j x hx
    rw [h7, KV.get_del] at hx
    split at hx
    · cases hx
    · obtain ⟨g1, g2, g3, g4, g5, g6, g7, g8⟩ := hi.live j x hx
      exact ⟨g1, g2, by rw [hid]; exact g3, g4, by rw [h2]; exact g5, g6, g7, g8⟩
  · intro j x hx
    rw [h3, KV.get_set] at hx
    rw [h7, KV.get_del, hid]
    split at hx
    · rename_i e
      rw [if_pos e, e, hk]
      exact ⟨rfl, hg.pos, hg.lt⟩
    · rename_i e
      rw [if_neg e]
      exact hi.past j x hx
  · intro j j1 j2
    rw [hid] at j2
    rw [h7, h3, KV.get_del, KV.get_set]
    by_cases e : j = c.id
    · right; exact ⟨c, if_pos e⟩
    · rw [if_neg e, if_neg e]
      exact hi.all j j1 j2
  · intro j j1 j2
    rw [h4]; exact hi.addr j j1 (by rw [hid] at j2; exact j2)
  · rw [h6, h7, hi.count]
    have := length_del hi.dist (show KV.get s.crons c.id = some c by rw [hk]; exact hc)
    omega

theorem bal_inv {wallet : Nat → List Nat} {s : State} (hi : Inv wallet s) (bal : List Nat → Nat) :
    Inv wallet { s with bal := bal } :=
  ⟨hi.dist, fun k c h => by
    obtain ⟨g1, g2, g3, g4, g5, g6, g7, g8⟩ := hi.live k c h
    exact ⟨g1, g2, g3, g4, g5, g6, g7, g8⟩, hi.past, hi.all, hi.addr, hi.count, hi.pos, hi.time⟩

theorem cancel_inv {wallet : Nat → List Nat} {s s' : State} {sender owner : Str} {id : Nat}
    (hi : Inv wallet s) (h : cancel s sender owner id = some s') : Inv wallet s' := by
  obtain ⟨c, o, hc, _, _, hr⟩ := cancel_facts h
  obtain ⟨c', hc', _, hcase⟩ := removeCron_facts hr
  rcases hcase with ⟨_, bal, _, rfl⟩ | ⟨_, rfl⟩
  · exact retire_inv (bal_inv hi bal) hc'
  · exact retire_inv hi hc'

/-- The identifier to use next grows by at most one. -/
theorem step_id {wallet : Nat → List Nat} {s : State} (op : Op) (hid : s.id + 1 < 2 ^ 64) :
    (step wallet s op).id ≤ s.id + 1 ∧ s.id ≤ (step wallet s op).id := by
  have same : ∀ x : State, x.nextId = s.nextId → x.id ≤ s.id + 1 ∧ s.id ≤ x.id := fun x hx => by
    unfold State.id; rw [hx]; exact ⟨Nat.le_succ _, Nat.le_refl _⟩
  cases op with
  | create r =>
    show ((create wallet s r).getD s).id ≤ _ ∧ _ ≤ ((create wallet s r).getD s).id
    cases h : create wallet s r with
    | none => exact same _ rfl
    | some s' =>
      obtain ⟨_, _, _, _, b, bal, _, _, _, rfl⟩ := create_facts h
      have : (addCron { s with
          nextId := some (bump s.id)
          accounts := fun a => if a = wallet s.id then true else s.accounts a
          bal := bal } (r.cron s.id s.height (accString (wallet s.id)))).id = s.id + 1 := by
        show (some (bump s.id)).getD 1 = _
        rw [bump_eq hid]; rfl
      rw [Option.getD_some, this]
      exact ⟨Nat.le_refl _, Nat.le_succ _⟩
  | callback id data =>
    refine same _ ?_
    show (callback s id data).nextId = _
    unfold callback
    dsimp only
    split
    · rfl
    · split <;> rfl
  | update r =>
    refine same _ ?_
    show ((update s r).getD s).nextId = _
    unfold update
    split
    · rfl
    · split <;> rfl
  | cancel a b c =>
    refine same _ ?_
    show ((cancel s a b c).getD s).nextId = _
    cases h : cancel s a b c with
    | none => rfl
    | some s' =>
      obtain ⟨_, o, _, _, _, hr⟩ := cancel_facts h
      obtain ⟨c', _, _, hcase⟩ := removeCron_facts hr
      rcases hcase with ⟨_, bal, _, rfl⟩ | ⟨_, rfl⟩
      · rw [Option.getD_some, (retire_frame _ _).2.2.2.2.2.2.2.1]
      · rw [Option.getD_some, (retire_frame _ _).2.2.2.2.2.2.2.1]
  | world bal accounts code height time => exact same _ rfl

theorem step_inv {wallet : Nat → List Nat} (hw : Wallets wallet) {s : State} (op : Op)
    (hi : Inv wallet s) (hid : s.id + 1 < 2 ^ 64) (hf : Fair wallet s op) :
    Inv wallet (step wallet s op) := by
  cases op with
  | create r =>
    show Inv wallet ((create wallet s r).getD s)
    cases h : create wallet s r with
    | none => exact hi
    | some s' => exact (create_inv hw hi hid hf h).1
  | callback id data => exact callback_inv hi id data
  | update r =>
    show Inv wallet ((update s r).getD s)
    cases h : update s r with
    | none => exact hi
    | some s' => exact update_inv hi h
  | cancel a b c =>
    show Inv wallet ((cancel s a b c).getD s)
    cases h : cancel s a b c with
    | none => exact hi
    | some s' => exact cancel_inv hi h
  | world bal accounts code height time =>
    obtain ⟨_, hacc, _, ht⟩ := hf
    refine ⟨hi.dist, fun k c h => ?_, hi.past, hi.all, hi.addr, hi.count, hi.pos, ht⟩
    obtain ⟨g1, g2, g3, g4, g5, g6, g7, g8⟩ := hi.live k c h
    exact ⟨g1, g2, g3, g4, hacc _ g5, g6, g7, g8⟩

theorem reach_id {wallet : Nat → List Nat} {n : Nat} {s : State} (h : Reach wallet n s)
    (hn : n < 2 ^ 64 - 2) : s.id ≤ n + 1 := by
  induction h with
  | init => exact Nat.le_refl 1
  | @step n s op _ _ ih =>
    have h1 := ih (by omega)
    have h2 := (step_id (wallet := wallet) (s := s) op (by omega)).1
    omega

theorem reach_inv {wallet : Nat → List Nat} (hw : Wallets wallet) {n : Nat} {s : State}
    (h : Reach wallet n s) (hn : n < 2 ^ 64 - 2) : Inv wallet s := by
  induction h with
  | init bal accounts code height time ht => exact init_inv wallet bal accounts code height time ht
  | step op hr hf ih =>
    have h1 := reach_id hr (by omega)
    exact step_inv hw op (ih (by omega)) (by omega) hf

end Chronos
