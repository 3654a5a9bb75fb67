import Verif.VM.ValueProps
/-!
# Accounts without code during an execution

Like the rule for wallets in `ValueProps`, but with the accounts in a set `G` (for example module accounts, whose nonce may be zero) and with the set `E` of
accounts whose coins precompiled contracts may take apart from those of their caller.
-/
namespace VM

/-- An account without code that exists, and at whose address no contract can be created: it has sent a transaction, or it is in `G`. -/
def World.idle (G : Addr → Prop) (w : World) (x : Addr) : Prop := w.exist x = true ∧ w.code x = [] ∧ (w.nonce x ≠ 0 ∨ G x)

/-- All but the balance is the same. -/
structure Kept (x : Addr) (w w' : World) : Prop where
  exist : w'.exist x = w.exist x
  nonce : w'.nonce x = w.nonce x
  code : w'.code x = w.code x
  state : ∀ k, w'.state x k = w.state x k
  suicided : w'.suicided x = w.suicided x

/-- Assumption about precompiled contracts: they change nothing but the balance of accounts without code, and take coins only from their caller and from `E`. -/
def PrecompilesGentle (env : Env) (G E : Addr → Prop) : Prop := ∀ a p, env.precompile a = some p → ∀ c v i g ro w x, w.idle G x →
  (p c v i g ro w).ok = true → Kept x w (p c v i g ro w).world ∧ (x ≠ c → ¬ E x → w.balance x ≤ (p c v i g ro w).world.balance x)

/-- Assumption about the addresses of new contracts (hashes): none of them is in `G`. -/
def NotDerived (env : Env) (G : Addr → Prop) : Prop := (∀ a n, ¬ G (env.createAddr a n)) ∧ ∀ a s c, ¬ G (env.create2Addr a s c)

/-- What an execution does to the accounts without code. -/
structure Spared (G E : Addr → Prop) (me : Addr) (w w' : World) : Prop where
  kept : ∀ x, x ≠ me → w.idle G x → Kept x w w'
  balance : ∀ x, x ≠ me → w.idle G x → ¬ E x → w.balance x ≤ w'.balance x

theorem Kept.refl (x : Addr) (w : World) : Kept x w w := ⟨rfl, rfl, rfl, fun _ => rfl, rfl⟩
theorem Kept.trans {x : Addr} {w1 w2 w3 : World} (h1 : Kept x w1 w2) (h2 : Kept x w2 w3) : Kept x w1 w3 :=
  ⟨h2.exist.trans h1.exist, h2.nonce.trans h1.nonce, h2.code.trans h1.code, fun k => (h2.state k).trans (h1.state k), h2.suicided.trans h1.suicided⟩
theorem Kept.idle {G : Addr → Prop} {x : Addr} {w w' : World} (h : Kept x w w') (hx : w.idle G x) : w'.idle G x :=
  ⟨h.exist.trans hx.1, h.code.trans hx.2.1, by rw [h.nonce]; exact hx.2.2⟩

theorem exist_acct {w : World} {x : Addr} (h : w.exist x = true) : ∃ c, w.acct x = some c := Option.isSome_iff_exists.mp h

theorem Kept.of_acct {x : Addr} {w w' : World} (h : w'.acct x = w.acct x) (hs : w'.store = w.store) : Kept x w w' := by
  refine ⟨?_, ?_, ?_, ?_, ?_⟩
  · unfold World.exist; rw [h]
  · unfold World.nonce; rw [h]
  · unfold World.code; rw [h]
  · intro k; unfold World.state; rw [h, hs]
  · unfold World.suicided; rw [h]

theorem balance_of_acct {x : Addr} {w w' : World} (h : w'.acct x = w.acct x) : w'.balance x = w.balance x := by
  unfold World.balance; rw [h]

theorem Kept.modify_other {x a : Addr} {w : World} {f : Acct → Acct} (h : x ≠ a) : Kept x w (w.modify a f) :=
  Kept.of_acct (by rw [acct_modify, if_neg h]) rfl

theorem balance_modify_other {x a : Addr} {w : World} {f : Acct → Acct} (h : x ≠ a) : (w.modify a f).balance x = w.balance x :=
  balance_of_acct (by rw [acct_modify, if_neg h])

/-- Only the balance changes. -/
theorem Kept.modify {x : Addr} {w : World} (hx : w.exist x = true) (a : Addr) {f : Acct → Acct} (hf : ∀ c, f c = { c with balance := (f c).balance }) : Kept x w (w.modify a f) := by
  by_cases e : x = a
  · subst e
    obtain ⟨c, hc⟩ := exist_acct hx
    have h : (w.modify x f).acct x = some (f c) := by
      rw [acct_modify, if_pos rfl, hc]
      rfl
    rw [hf c] at h
    refine ⟨?_, ?_, ?_, ?_, ?_⟩
    · unfold World.exist; rw [h, hc]; rfl
    · unfold World.nonce; rw [h, hc]; rfl
    · unfold World.code; rw [h, hc]; rfl
    · intro k; unfold World.state; rw [h, hc]; rfl
    · unfold World.suicided; rw [h, hc]; rfl
  · exact Kept.modify_other e

theorem Kept.addBalance {x : Addr} {w : World} (hx : w.exist x = true) (a : Addr) (v : Int) : Kept x w (w.addBalance a v) := Kept.modify hx a (fun _ => rfl)
theorem Kept.subBalance {x : Addr} {w : World} (hx : w.exist x = true) (a : Addr) (v : Int) : Kept x w (w.subBalance a v) := Kept.modify hx a (fun _ => rfl)

theorem Kept.transfer {x : Addr} {w : World} (hx : w.exist x = true) (a b : Addr) (v : Int) : Kept x w (w.transfer a b v) := by
  have h1 := Kept.subBalance hx a v
  exact h1.trans (Kept.addBalance (h1.exist.trans hx) b v)

theorem Kept.enter {x : Addr} {w : World} (hx : w.exist x = true) (a b : Addr) (v : Int) : Kept x w (enter w a b v) := by
  unfold VM.enter
  split
  · exact Kept.transfer hx a b v
  · rename_i hb
    have h1 : Kept x w (w.createAccount b) := Kept.modify_other (fun e => hb (e ▸ hx))
    exact h1.trans (Kept.transfer (h1.exist.trans hx) a b v)

theorem balance_enter (w : World) (a b : Addr) (v : Int) (x : Addr) : (enter w a b v).balance x = (w.transfer a b v).balance x := by
  unfold enter
  split
  · rfl
  · rename_i hb
    rw [balance_transfer, balance_transfer]
    have : ∀ y, (w.createAccount b).balance y = w.balance y := by
      intro y
      by_cases e : y = b
      · subst e
        unfold World.createAccount World.balance
        rw [acct_modify, if_pos rfl]
        cases w.acct y <;> rfl
      · exact balance_modify_other e
    rw [this]

theorem balance_addBalance_le (w : World) (a : Addr) {v : Int} (hv : 0 ≤ v) (x : Addr) : w.balance x ≤ (w.addBalance a v).balance x := by
  unfold World.addBalance
  rw [balance_modify]
  split
  · rename_i e
    subst e
    unfold World.balance
    cases w.acct x with
    | none => show (0 : Int) ≤ 0 + v; omega
    | some c => show c.balance ≤ c.balance + v; omega
  · exact Int.le_refl _

theorem Kept.selfdestruct {x a : Addr} {w : World} (hx : w.exist x = true) (h : x ≠ a) (b : Addr) : Kept x w (w.selfdestruct a b) := by
  have h1 := Kept.addBalance hx b (w.balance a)
  have h2 : Kept x (w.addBalance b (w.balance a)) ((w.addBalance b (w.balance a)).suicide a) := by
    rw [suicide_eq]
    split
    · exact Kept.modify_other h
    · exact Kept.refl _ _
  refine h1.trans (h2.trans ?_)
  unfold World.selfdestruct
  dsimp only
  split
  · exact Kept.of_acct rfl rfl
  · exact Kept.refl _ _

theorem balance_selfdestruct_le {x a : Addr} {w : World} (h : x ≠ a) (b : Addr) (hb : 0 ≤ w.balance a) : w.balance x ≤ (w.selfdestruct a b).balance x := by
  have h1 := balance_addBalance_le w b hb x
  have h2 : ((w.addBalance b (w.balance a)).suicide a).balance x = (w.addBalance b (w.balance a)).balance x := by
    rw [suicide_eq]
    split
    · exact balance_modify_other h
    · rfl
  have h3 : (w.selfdestruct a b).balance x = ((w.addBalance b (w.balance a)).suicide a).balance x := by
    unfold World.selfdestruct
    dsimp only
    split <;> rfl
  omega

theorem Spared.of_kept {G E : Addr → Prop} {self : Addr} {w w' : World} (h : ∀ x, x ≠ self → w.idle G x → Kept x w w' ∧ (¬ E x → w.balance x ≤ w'.balance x)) : Spared G E self w w' :=
  ⟨fun x h1 h2 => (h x h1 h2).1, fun x h1 h2 => (h x h1 h2).2⟩

theorem Spared.trans {G E : Addr → Prop} {self : Addr} {w1 w2 w3 : World} (h1 : Spared G E self w1 w2) (h2 : Spared G E self w2 w3) : Spared G E self w1 w3 :=
  ⟨fun x a b => (h1.kept x a b).trans (h2.kept x a ((h1.kept x a b).idle b)),
   fun x a b c => Int.le_trans (h1.balance x a b c) (h2.balance x a ((h1.kept x a b).idle b) c)⟩

theorem Spared.refl (G E : Addr → Prop) (self : Addr) (w : World) : Spared G E self w w := ⟨fun x _ _ => Kept.refl x w, fun _ _ _ _ => Int.le_refl _⟩

theorem Spared.of_accts {G E : Addr → Prop} {self : Addr} {w w' : World} (h : w'.accts = w.accts) (hs : w'.store = w.store) : Spared G E self w w' :=
  Spared.of_kept fun x _ _ => ⟨Kept.of_acct (by unfold World.acct; rw [h]) hs, fun _ => Int.le_of_eq (balance_of_acct (by unfold World.acct; rw [h])).symm⟩

theorem Spared.modify_self {G E : Addr → Prop} {self : Addr} {w : World} {f : Acct → Acct} : Spared G E self w (w.modify self f) :=
  Spared.of_kept fun _ h _ => ⟨Kept.modify_other h, fun _ => Int.le_of_eq (balance_modify_other h).symm⟩

theorem balance_transfer_le {x a : Addr} {w : World} (h : x ≠ a) (b : Addr) {v : Int} (hv : 0 ≤ v) : w.balance x ≤ (w.transfer a b v).balance x := by
  rw [balance_transfer, if_neg h]
  split <;> omega

theorem Spared.enter {G E : Addr → Prop} {a : Addr} {w : World} (b : Addr) {v : Int} (hv : 0 ≤ v) : Spared G E a w (enter w a b v) :=
  Spared.of_kept fun x h hx => ⟨Kept.enter hx.1 a b v, fun _ => by rw [balance_enter]; exact balance_transfer_le h b hv⟩

theorem Spared.addZero {G E : Addr → Prop} {a : Addr} {w : World} (b : Addr) : Spared G E a w (w.addBalance b 0) :=
  Spared.of_kept fun x _ hx => ⟨Kept.addBalance hx.1 b 0, fun _ => balance_addBalance_le w b (Int.le_refl 0) x⟩

/-- A callee `b` that starts in `w1` and does nothing if it has no code. -/
theorem Spared.callee {G E : Addr → Prop} {a b : Addr} {w w1 w3 : World} (h1 : Spared G E a w w1) (he : w1.code b = [] → w3 = w1) (h3 : Spared G E b w1 w3) : Spared G E a w w3 :=
  Spared.of_kept fun x ha hx => by
    have k1 := h1.kept x ha hx
    have i1 := k1.idle hx
    by_cases e : x = b
    · subst e
      rw [he i1.2.1]
      exact ⟨k1, h1.balance x ha hx⟩
    · exact ⟨k1.trans (h3.kept x e i1), fun hE => Int.le_trans (h1.balance x ha hx hE) (h3.balance x e i1 hE)⟩

theorem gentle_spared {env : Env} {G E : Addr → Prop} (hG : PrecompilesGentle env G E) {b a : Addr} {p : Addr → Int → List UInt8 → Nat → Bool → World → PRes} {v : Int} {i : List UInt8} {g : Nat} {ro : Bool} {w : World}
    (hp : env.precompile b = some p) (hok : (p a v i g ro w).ok = true) : Spared G E a w (p a v i g ro w).world :=
  Spared.of_kept fun x ha hx => ⟨(hG _ _ hp _ _ _ _ _ _ x hx hok).1, (hG _ _ hp _ _ _ _ _ _ x hx hok).2 ha⟩

/-- The new contract `b` is none of the accounts. -/
theorem Spared.created {G E : Addr → Prop} {a b : Addr} {w w3 : World} {v : Int} {code : List UInt8} (hv : 0 ≤ v) (hb : ¬ G b) (hn : w.nonce b = 0)
    (h3 : Spared G E b (created w a b v) w3) : Spared G E a w (w3.setCode b code) :=
  Spared.of_kept fun x ha hx => by
    have hne : x ≠ b := by
      intro e
      rcases hx.2.2 with h | h
      · exact h (by rw [e]; exact hn)
      · exact hb (e ▸ h)
    have k1 : Kept x w ((w.createAccount b).setNonce b 1) := (Kept.modify_other hne).trans (Kept.modify_other hne)
    have k2 : Kept x w (VM.created w a b v) := k1.trans (Kept.transfer (k1.exist.trans hx.1) a b v)
    have b1 : ((w.createAccount b).setNonce b 1).balance x = w.balance x := (balance_modify_other hne).trans (balance_modify_other hne)
    have b2 : w.balance x ≤ (VM.created w a b v).balance x := by
      rw [← b1]
      exact balance_transfer_le ha b hv
    refine ⟨(k2.trans (h3.kept x hne (k2.idle hx))).trans (Kept.modify_other hne), fun hE => ?_⟩
    have b3 := h3.balance x hne (k2.idle hx) hE
    have b4 : (w3.setCode b code).balance x = w3.balance x := balance_modify_other hne
    omega

/-- The rule. -/
theorem idle_rule {env : Env} {G E : Addr → Prop} (hC : PrecompilesConserve env) (hG : PrecompilesGentle env G E) (hD : NotDerived env G) :
    Rule env (fun _ w => Solvent w) (fun a _ w w' => Solvent w → Conserves w w' ∧ Spared G E a w w') False (fun b => ¬ G b) where
  derived a w r := by
    unfold createAddress
    split
    · exact hD.1 _ _
    · exact hD.2 _ _ _
  refl _ _ w h := ⟨Conserves.refl h, Spared.refl _ _ _ w⟩
  trans h1 h2 h := ⟨(h1 h).1.trans (h2 (h1 h).1.solvent).1, (h1 h).2.trans (h2 (h1 h).1.solvent).2⟩
  pre h hr := (hr h).1.solvent
  warms _ hw _ h := ⟨Conserves.same h hw.accts hw.burnt, Spared.of_accts hw.accts hw.store⟩
  sstore h hd _ := ⟨(value_rule hC).sstore h hd h, by
    obtain ⟨_, hw, _⟩ := sstoreDyn_ok hd
    exact (Spared.of_accts hw.accts hw.store).trans Spared.modify_self⟩
  log _ _ h := ⟨Conserves.same h rfl rfl, Spared.of_accts rfl rfl⟩
  selfdestruct {a w} b _ h := ⟨Conserves.selfdestruct h _ b,
    Spared.of_kept fun _ ha hx => ⟨Kept.selfdestruct hx.1 ha b, fun _ => balance_selfdestruct_le ha b (h.nonneg a)⟩⟩
  nopanic h := h.elim
  call {a b ro w v} h _ _ hv hb := ⟨(Conserves.enter h hv hb).solvent, fun w3 he h3 _ => by
    have hc := Conserves.enter (b := b) h hv hb
    obtain ⟨h4, h5⟩ := h3 hc.solvent
    exact ⟨hc.trans h4, (Spared.enter b hv).callee he h5⟩⟩
  pcall {a b ro w v p i g} h _ _ hv hb hp hok _ := by
    have hc := Conserves.enter (b := b) h hv hb
    exact ⟨hc.trans (hC _ _ hp _ _ _ _ _ _ hc.solvent hok), (Spared.enter b hv).trans (gentle_spared hG hp hok)⟩
  pother h _ hp hok _ := ⟨hC _ _ hp _ _ _ _ _ _ h hok, gentle_spared hG hp hok⟩
  static {a b ro w} h _ := ⟨(Conserves.addZero h _).solvent, fun w3 he h3 _ => by
    have hc := Conserves.addZero h b
    obtain ⟨h4, h5⟩ := h3 hc.solvent
    exact ⟨hc.trans h4, (Spared.addZero b).callee he h5⟩⟩
  pstatic {a b ro w p i g} h _ hp hok _ := by
    have hc := Conserves.addZero h b
    exact ⟨hc.trans (hC _ _ hp _ _ _ _ _ _ hc.solvent hok), (Spared.addZero b).trans (gentle_spared hG hp hok)⟩
  create0 b h hn _ := ⟨(value_rule hC).create0 b h hn h, (Spared.modify_self (f := fun c => { c with nonce := _ })).trans (Spared.of_accts rfl rfl)⟩
  create {a b w v} hb h hw hv hbal hn hc := ⟨(Conserves.created h hv hbal).solvent, fun w3 code h3 _ => by
    have hcr := Conserves.created (b := b) h hv hbal
    obtain ⟨h4, h5⟩ := h3 hcr.solvent
    exact ⟨(hcr.trans h4).trans (Conserves.setCode h4.solvent _ _), Spared.created hv hb hn h5⟩⟩

end VM
