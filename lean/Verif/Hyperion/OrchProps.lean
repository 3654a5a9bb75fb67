import Verif.Hyperion.OrchLemmas
/-!
# Registration of orchestrators (C96)

Each bridge keeps for each validator at most one orchestrator and one Ethereum address, no two validators share either, lookups by address
and by validator agree, only a validator changes its own registration, and unregistering ends it entirely, so that it can be made again. A transfer
out is accepted only if its fee is at least the least fee a registered validator asks for.

The first sentence fails in several ways (`two_orchestrators`, `shared_address`, `others_link_removed`, `votes_after_leaving`, `listing_can_panic`,
`export_is_lost`), so `sound_partial` has conditions on messages. The second holds.
-/
namespace Hyperion.Orch

/-- A registration is made exactly if the sender is a validator without an address and the orchestrator is free and allowed; it then stores what was
asked for and leaves the registrations of others as they were, but for who answers for that address. -/
theorem register_exact (r : Reg) (v o e : Nat) :
    ((r.vals v = true ∧ (∀ w, ¬ Acts r o w) ∧ (∀ a, ¬ Signs r v a) ∧ r.allowed o = true) →
      Acts (step r (.register v o e)) o v ∧ Signs (step r (.register v o e)) v e ∧ Answers (step r (.register v o e)) e v ∧
      (∀ p w, p ≠ o → (Acts (step r (.register v o e)) p w ↔ Acts r p w)) ∧
      (∀ w a, w ≠ v → (Signs (step r (.register v o e)) w a ↔ Signs r w a)) ∧
      (∀ a w, a ≠ e → (Answers (step r (.register v o e)) a w ↔ Answers r a w)) ∧
      (∀ w f, Asks (step r (.register v o e)) w f ↔ Asks r w f)) ∧
    (¬ (r.vals v = true ∧ (∀ w, ¬ Acts r o w) ∧ (∀ a, ¬ Signs r v a) ∧ r.allowed o = true) → step r (.register v o e) = r) := by
  have hm : mayRegister r v o = true ↔ (r.vals v = true ∧ (∀ w, ¬ Acts r o w) ∧ (∀ a, ¬ Signs r v a) ∧ r.allowed o = true) := by
    rw [mayRegister_iff]
    unfold Acts Signs
    rw [Option.eq_none_iff_forall_ne_some, Option.eq_none_iff_forall_ne_some]
  constructor
  · intro h
    have e1 : step r (.register v o e) =
        { link r v o e with data := if (KV.get r.data o).isNone then KV.set r.data o (0, 0) else r.data } := if_pos (hm.2 h)
    rw [e1]
    unfold Acts Signs Answers Asks link
    dsimp only
    refine ⟨by rw [KV.get_set, if_pos rfl], by rw [KV.get_set, if_pos rfl], by rw [KV.get_set, if_pos rfl], fun p w hp => ?_, fun w a hw => ?_,
      fun a w ha => ?_, fun w f => Iff.rfl⟩
    · rw [KV.get_set, if_neg hp]
    · rw [KV.get_set, if_neg hw]
    · rw [KV.get_set, if_neg ha]
  · intro h
    exact if_neg (fun e1 => h (hm.1 e1))

/-- With a fee, the address is the sender's own, and the fee asked for is the one given, if it is not negative. -/
theorem register_fee_exact (r : Reg) (v o f : Nat) (b : Int) (hv : r.vals v = true) (ho : ∀ w, ¬ Acts r o w) (he : ∀ a, ¬ Signs r v a)
    (ha : r.allowed o = true) :
    Acts (step r (.registerFee v o f b true)) o v ∧ Signs (step r (.registerFee v o f b true)) v v ∧
    Answers (step r (.registerFee v o f b true)) v v ∧ Asks (step r (.registerFee v o f b true)) v f ∧
    (∀ w g, w ≠ v → (Asks (step r (.registerFee v o f b true)) w g ↔ Asks r w g)) := by
  have hm : mayRegister r v o = true :=
    mayRegister_iff.2 ⟨hv, Option.eq_none_iff_forall_ne_some.2 ho, Option.eq_none_iff_forall_ne_some.2 he, ha⟩
  have e1 : step r (.registerFee v o f b true) =
      { link r v o v with fees := KV.set r.fees v (f : Int).natAbs, data := KV.set r.data o ((f : Int), b) } :=
    if_pos (by rw [hm]; rfl)
  rw [e1]
  unfold Acts Signs Answers Asks link
  dsimp only
  refine ⟨by rw [KV.get_set, if_pos rfl], by rw [KV.get_set, if_pos rfl], by rw [KV.get_set, if_pos rfl],
    by rw [KV.get_set, if_pos rfl]; rfl, fun w g hw => ?_⟩
  rw [KV.get_set, if_neg hw]

/-- Fees in another denomination, or from one who may not register, change nothing. -/
theorem register_fee_refused (r : Reg) (v o : Nat) (f b : Int) (bond : Bool)
    (h : bond = false ∨ r.vals v = false ∨ (∃ w, Acts r o w) ∨ (∃ a, Signs r v a) ∨ r.allowed o = false) :
    step r (.registerFee v o f b bond) = r := by
  refine if_neg (fun e1 => ?_)
  rw [Bool.and_eq_true, mayRegister_iff] at e1
  obtain ⟨h1, h2, h3, h4, h5⟩ := e1
  rcases h with h | h | ⟨w, h⟩ | ⟨a, h⟩ | h
  · rw [h1] at h; cases h
  · rw [h2] at h; cases h
  · unfold Acts at h; rw [h3] at h; cases h
  · unfold Signs at h; rw [h4] at h; cases h
  · rw [h5] at h; cases h

def sample : Reg := run init [.setVal 1 true, .setVal 2 true, .setVal 3 true, .registerFee 1 1 50 9 true, .register 2 20 200]

example : sample.vals 3 = true ∧ KV.get sample.orch 30 = none ∧ KV.get sample.eth 3 = none ∧ sample.allowed 30 = true ∧
    Acts (step sample (.register 3 30 300)) 30 3 ∧ step sample (.register 3 20 300) = sample ∧ step sample (.register 4 30 300) = sample := by
  refine ⟨by decide +kernel, by decide +kernel, by decide +kernel, by decide +kernel, by unfold Acts; decide +kernel, rfl, rfl⟩

/-- Nobody but validator `v` changes the address `v` signs with or the fee it asks for. -/
theorem only_own (r : Reg) (op : Op) (v : Nat) (h : signer op ≠ some v) :
    (∀ e, Signs (step r op) v e ↔ Signs r v e) ∧ (∀ f, Asks (step r op) v f ↔ Asks r v f) := by
  unfold Signs Asks
  have hs : ∀ (m : List (Nat × Nat)) (w x a : Nat), v ≠ w → (KV.get (KV.set m w x) v = some a ↔ KV.get m v = some a) := by
    intro m w x a hw
    rw [KV.get_set, if_neg hw]
  have hd : ∀ (m : List (Nat × Nat)) (w a : Nat), v ≠ w → (KV.get (KV.del m w) v = some a ↔ KV.get m v = some a) := by
    intro m w a hw
    rw [KV.get_del, if_neg hw]
  cases op with
  | register w o e =>
    have hw : v ≠ w := fun e => h (by rw [e]; rfl)
    show (∀ a, KV.get (register r w o e).eth v = some a ↔ _) ∧ ∀ a, KV.get (register r w o e).fees v = some a ↔ _
    unfold register
    split
    · exact ⟨fun a => hs _ _ _ a hw, fun _ => Iff.rfl⟩
    · exact ⟨fun _ => Iff.rfl, fun _ => Iff.rfl⟩
  | registerFee w o f b bond =>
    have hw : v ≠ w := fun e => h (by rw [e]; rfl)
    show (∀ a, KV.get (registerFee r w o f b bond).eth v = some a ↔ _) ∧ ∀ a, KV.get (registerFee r w o f b bond).fees v = some a ↔ _
    unfold registerFee
    split
    · exact ⟨fun a => hs _ _ _ a hw, fun a => hs _ _ _ a hw⟩
    · exact ⟨fun _ => Iff.rfl, fun _ => Iff.rfl⟩
  | updateFee w f b bond =>
    have hw : v ≠ w := fun e => h (by rw [e]; rfl)
    show (∀ a, KV.get (updateFee r w f b bond).eth v = some a ↔ _) ∧ ∀ a, KV.get (updateFee r w f b bond).fees v = some a ↔ _
    unfold updateFee
    split
    · exact ⟨fun _ => Iff.rfl, fun a => hs _ _ _ a hw⟩
    · exact ⟨fun _ => Iff.rfl, fun _ => Iff.rfl⟩
  | deleteFee w =>
    have hw : v ≠ w := fun e => h (by rw [e]; rfl)
    exact ⟨fun _ => Iff.rfl, fun a => hd _ _ a hw⟩
  | unset w e =>
    have hw : v ≠ w := fun e => h (by rw [e]; rfl)
    exact ⟨fun a => hd _ _ a hw, fun a => hd _ _ a hw⟩
  | setVal w b => exact ⟨fun _ => Iff.rfl, fun _ => Iff.rfl⟩
  | setAllowed l => exact ⟨fun _ => Iff.rfl, fun _ => Iff.rfl⟩

example : signer (.unset 2 200) ≠ some 1 ∧ Asks sample 1 50 ∧ Asks (step sample (.unset 2 200)) 1 50 ∧ ¬ Asks (step sample (.unset 1 1)) 1 50 := by
  unfold Asks
  refine ⟨by decide +kernel, by decide +kernel, by decide +kernel, by decide +kernel⟩

/-- An orchestrator starts to act for a validator only by a message of that validator, and stops only by a message to leave that it signs itself. -/
theorem orchestrators_stay (r : Reg) (op : Op) (o v : Nat) :
    (¬ Acts r o v → Acts (step r op) o v → signer op = some v) ∧
    (Acts r o v → ¬ Acts (step r op) o v → ∃ e, op = .unset o e) := by
  unfold Acts
  have hset : ∀ (w p : Nat), KV.get r.orch p = none →
      (¬ KV.get r.orch o = some v → KV.get (KV.set r.orch p w) o = some v → some w = some v) ∧
      (KV.get r.orch o = some v → KV.get (KV.set r.orch p w) o = some v) := by
    intro w p hp
    refine ⟨fun h1 h2 => ?_, fun h1 => set_none hp h1⟩
    rw [KV.get_set] at h2
    split at h2
    · exact h2
    · exact absurd h2 h1
  cases op with
  | register w p e =>
    show (_ → KV.get (register r w p e).orch o = some v → some w = some v) ∧ (_ → ¬ KV.get (register r w p e).orch o = some v → _)
    unfold register
    split
    · rename_i hm
      obtain ⟨h1, h2⟩ := hset w p (mayRegister_iff.1 hm).2.1
      exact ⟨h1, fun h3 h4 => absurd (h2 h3) h4⟩
    · exact ⟨fun h1 h2 => absurd h2 h1, fun h1 h2 => absurd h1 h2⟩
  | registerFee w p f b bond =>
    show (_ → KV.get (registerFee r w p f b bond).orch o = some v → some w = some v) ∧
      (_ → ¬ KV.get (registerFee r w p f b bond).orch o = some v → _)
    unfold registerFee
    split
    · rename_i hm
      rw [Bool.and_eq_true] at hm
      obtain ⟨h1, h2⟩ := hset w p (mayRegister_iff.1 hm.2).2.1
      exact ⟨h1, fun h3 h4 => absurd (h2 h3) h4⟩
    · exact ⟨fun h1 h2 => absurd h2 h1, fun h1 h2 => absurd h1 h2⟩
  | updateFee w f b bond =>
    show (_ → KV.get (updateFee r w f b bond).orch o = some v → some w = some v) ∧
      (_ → ¬ KV.get (updateFee r w f b bond).orch o = some v → _)
    unfold updateFee
    split
    · exact ⟨fun h1 h2 => absurd h2 h1, fun h1 h2 => absurd h1 h2⟩
    · exact ⟨fun h1 h2 => absurd h2 h1, fun h1 h2 => absurd h1 h2⟩
  | deleteFee w => exact ⟨fun h1 h2 => absurd h2 h1, fun h1 h2 => absurd h1 h2⟩
  | unset w e =>
    show (_ → KV.get (KV.del r.orch w) o = some v → some w = some v) ∧ (_ → ¬ KV.get (KV.del r.orch w) o = some v → _)
    rw [KV.get_del]
    by_cases hw : o = w
    · rw [if_pos hw]
      exact ⟨fun _ h2 => (nomatch h2), fun _ _ => ⟨e, by rw [hw]⟩⟩
    · rw [if_neg hw]
      exact ⟨fun h1 h2 => absurd h2 h1, fun h1 h2 => absurd h1 h2⟩
  | setVal w b => exact ⟨fun h1 h2 => absurd h2 h1, fun h1 h2 => absurd h1 h2⟩
  | setAllowed l => exact ⟨fun h1 h2 => absurd h2 h1, fun h1 h2 => absurd h1 h2⟩

example : Acts sample 20 2 ∧ ¬ Acts (step sample (.unset 20 0)) 20 2 ∧ Acts (step sample (.unset 2 200)) 20 2 := by
  unfold Acts
  refine ⟨by decide +kernel, by decide +kernel, by decide +kernel⟩

/-- Leaving takes away the sender's address and fee, the address in the message, and what the sender's account did as an orchestrator; nothing else. -/
theorem unset_exact (r : Reg) (v e : Nat) :
    (∀ a, ¬ Signs (step r (.unset v e)) v a) ∧ (∀ f, ¬ Asks (step r (.unset v e)) v f) ∧
    (∀ w, ¬ Acts (step r (.unset v e)) v w) ∧ (∀ w, ¬ Answers (step r (.unset v e)) e w) ∧
    (∀ o w, o ≠ v → (Acts (step r (.unset v e)) o w ↔ Acts r o w)) ∧ (∀ a w, a ≠ e → (Answers (step r (.unset v e)) a w ↔ Answers r a w)) := by
  unfold Signs Asks Acts Answers
  show (∀ a, ¬ KV.get (KV.del r.eth v) v = some a) ∧ (∀ f, ¬ KV.get (KV.del r.fees v) v = some f) ∧
    (∀ w, ¬ KV.get (KV.del r.orch v) v = some w) ∧ (∀ w, ¬ KV.get (KV.del r.byEth e) e = some w) ∧
    (∀ o w, o ≠ v → (KV.get (KV.del r.orch v) o = some w ↔ _)) ∧ (∀ a w, a ≠ e → (KV.get (KV.del r.byEth e) a = some w ↔ _))
  refine ⟨fun a => ?_, fun a => ?_, fun a => ?_, fun a => ?_, fun o w h => ?_, fun a w h => ?_⟩
  · rw [KV.get_del, if_pos rfl]; exact fun h => nomatch h
  · rw [KV.get_del, if_pos rfl]; exact fun h => nomatch h
  · rw [KV.get_del, if_pos rfl]; exact fun h => nomatch h
  · rw [KV.get_del, if_pos rfl]; exact fun h => nomatch h
  · rw [KV.get_del, if_neg h]
  · rw [KV.get_del, if_neg h]

/-- Deleting a fee ends asking for it, and changes nothing else. -/
theorem delete_fee_exact (r : Reg) (v : Nat) :
    (∀ f, ¬ Asks (step r (.deleteFee v)) v f) ∧ (∀ o w, Acts (step r (.deleteFee v)) o w ↔ Acts r o w) ∧
    (∀ w e, Signs (step r (.deleteFee v)) w e ↔ Signs r w e) ∧ (∀ e w, Answers (step r (.deleteFee v)) e w ↔ Answers r e w) := by
  refine ⟨fun f => ?_, fun _ _ => Iff.rfl, fun _ _ => Iff.rfl, fun _ _ => Iff.rfl⟩
  show ¬ KV.get (KV.del r.fees v) v = some f
  rw [KV.get_del, if_pos rfl]
  exact fun h => nomatch h

example : Asks sample 1 50 ∧ sendOk (step sample (.deleteFee 1)) 50 = false := by
  unfold Asks
  decide +kernel

/-- The registry is sound at every moment if messages are careful: nobody registers an Ethereum address that somebody has, and only validators that
are their own orchestrators leave, naming their own address. Without that it is not: see the counterexamples below. -/
theorem sound_partial (ops : List Op) (h : Careful init ops) : Sound (run init ops) := by
  have key : ∀ (ops : List Op) (r : Reg), Sound r → Careful r ops → Sound (run r ops) := by
    intro ops
    induction ops with
    | nil => exact fun r hr _ => hr
    | cons op ops ih => exact fun r hr hc => ih _ (sound_step hr op ⟨hc.1, trivial⟩) hc.2
  refine key ops init ⟨fun {o v} h => ?_, fun {v e} h => ?_, fun {o o' v} h => ?_, fun {v e} => ?_⟩ h
  · exact absurd h (by unfold Acts; exact fun h => nomatch h)
  · exact absurd h (by unfold Signs; exact fun h => nomatch h)
  · exact absurd h (by unfold Acts; exact fun h => nomatch h)
  · unfold Signs Answers
    exact ⟨fun h => (nomatch h), fun h => (nomatch h)⟩

example : Careful init [.setVal 1 true, .setVal 2 true, .registerFee 1 1 50 9 true, .register 2 20 200, .unset 1 1, .register 1 10 100] := by
  have hn : ∀ (m : List (Nat × Nat)) (a : Nat), (∀ x ∈ m, x.2 ≠ a) → ∀ w, ¬ KV.get m w = some a :=
    fun m a h w e => h _ (KV.mem_of_get e) rfl
  refine ⟨trivial, trivial, hn _ _ (by decide +kernel), hn _ _ (by decide +kernel), ⟨?_, ?_⟩, hn _ _ (by decide +kernel), trivial⟩
  · unfold Acts; decide +kernel
  · unfold Signs; decide +kernel

/-- Whoever asks for a fee is registered. -/
theorem fees_registered (ops : List Op) (v f : Nat) (h : Asks (run init ops) v f) : ∃ e, Signs (run init ops) v e := by
  have hstep : ∀ (r : Reg) (op : Op), (∀ v f, Asks r v f → ∃ e, Signs r v e) → ∀ v f, Asks (step r op) v f → ∃ e, Signs (step r op) v e := by
    intro r op hr v f hf
    by_cases hsig : signer op = some v
    · cases op with
      | register w o e =>
        by_cases hm : mayRegister r w o = true
        · cases hsig
          have e1 : step r (.register v o e) =
            { link r v o e with data := if (KV.get r.data o).isNone then KV.set r.data o (0, 0) else r.data } := if_pos hm
          rw [e1]
          exact ⟨e, by show KV.get (KV.set r.eth v e) v = some e; rw [KV.get_set, if_pos rfl]⟩
        · have e1 : step r (.register w o e) = r := if_neg hm
          rw [e1] at hf ⊢
          exact hr v f hf
      | registerFee w o g b bond =>
        by_cases hm : (bond && mayRegister r w o) = true
        · cases hsig
          have e1 : step r (.registerFee v o g b bond) =
            { link r v o v with fees := KV.set r.fees v g.natAbs, data := KV.set r.data o (g, b) } := if_pos hm
          rw [e1]
          exact ⟨v, by show KV.get (KV.set r.eth v v) v = some v; rw [KV.get_set, if_pos rfl]⟩
        · have e1 : step r (.registerFee w o g b bond) = r := if_neg hm
          rw [e1] at hf ⊢
          exact hr v f hf
      | updateFee w g b bond =>
        cases hsig
        by_cases hm : ((KV.get r.fees v).isSome && bond && (KV.get r.data v).isSome) = true
        · have e1 : step r (.updateFee v g b bond) =
            { r with fees := KV.set r.fees v g.natAbs, data := KV.set r.data v (g, b) } := if_pos hm
          rw [e1]
          simp only [Bool.and_eq_true] at hm
          obtain ⟨f', hf'⟩ := Option.isSome_iff_exists.1 hm.1.1
          exact hr v f' hf'
        · have e1 : step r (.updateFee v g b bond) = r := if_neg hm
          rw [e1] at hf ⊢
          exact hr v f hf
      | deleteFee w =>
        cases hsig
        have hf : KV.get (KV.del r.fees v) v = some f := hf
        rw [KV.get_del, if_pos rfl] at hf
        cases hf
      | unset w e =>
        cases hsig
        exact absurd hf ((unset_exact r v e).2.1 f)
      | setVal w b => cases hsig
      | setAllowed l => cases hsig
    · obtain ⟨h1, h2⟩ := only_own r op v hsig
      obtain ⟨e, he⟩ := hr v f ((h2 f).1 hf)
      exact ⟨e, (h1 e).2 he⟩
  have key : ∀ (ops : List Op) (r : Reg), (∀ v f, Asks r v f → ∃ e, Signs r v e) → ∀ v f, Asks (run r ops) v f → ∃ e, Signs (run r ops) v e := by
    intro ops
    induction ops with
    | nil => exact fun r hr => hr
    | cons op ops ih => exact fun r hr => ih _ (hstep r op hr)
  exact key ops init (fun v f h => absurd h (by unfold Asks; exact fun h => nomatch h)) v f h

example : Asks sample 1 50 := by unfold Asks; decide +kernel

/-- The lowest fee is that of somebody who asks, and nobody asks for less; there is none only if nobody asks. -/
theorem lowest_exact (ops : List Op) :
    (∀ v, lowest (run init ops) = some v → ∃ f, Asks (run init ops) v f ∧ ∀ w g, Asks (run init ops) w g → f ≤ g) ∧
    (lowest (run init ops) = none ↔ ∀ w g, ¬ Asks (run init ops) w g) := by
  have hd := (tidy_run tidy_init ops).fees
  generalize run init ops = r at hd
  rcases lowest_mem (r := r) with ⟨h1, h2⟩ | ⟨v, f, h1, h2, h3⟩
  · refine ⟨fun v h => ?_, fun _ w g h => ?_, fun _ => h2⟩
    · rw [h2] at h; cases h
    · have := KV.mem_of_get h
      rw [h1] at this
      cases this
  · have hf : Asks r v f := KV.get_of_mem hd h2
    refine ⟨fun v' h => ?_, fun h => ?_, fun h => absurd hf (h v f)⟩
    · rw [h1] at h
      cases h
      exact ⟨f, hf, fun w g hg => h3 _ (KV.mem_of_get hg)⟩
    · rw [h1] at h; cases h

/-- A transfer out is accepted, as far as fees go, exactly if some validator asks for no more than is offered. -/
theorem send_accepted_iff (ops : List Op) (offer : Int) :
    sendOk (run init ops) offer = true ↔ ∃ v f, Asks (run init ops) v f ∧ (f : Int) ≤ offer := by
  obtain ⟨h1, h2⟩ := lowest_exact ops
  generalize run init ops = r at h1 h2
  unfold sendOk
  cases hl : lowest r with
  | none => exact ⟨fun h => (nomatch h), fun ⟨v, f, h, _⟩ => absurd h (h2.1 hl v f)⟩
  | some v =>
    obtain ⟨f, hf, hm⟩ := h1 v hl
    have hf' : KV.get r.fees v = some f := hf
    simp only [hf', Bool.not_eq_true', decide_eq_false_iff_not]
    constructor
    · intro h
      exact ⟨v, f, hf, by omega⟩
    · rintro ⟨w, g, hg, hle⟩
      have := hm w g hg
      omega

example : sendOk sample 50 = true ∧ sendOk sample 49 = false ∧ sendOk init 1000 = false := by decide +kernel

/-- Who has a fee and is their own orchestrator can change the fee, to what they say if it is not negative. -/
theorem update_fee_exact (r : Reg) (v f : Nat) (b : Int) (hf : ∃ g, Asks r v g) (hd : KV.get r.data v ≠ none) :
    Asks (step r (.updateFee v f b true)) v f := by
  obtain ⟨g, hg⟩ := hf
  have hg : KV.get r.fees v = some g := hg
  cases hd' : KV.get r.data v with
  | none => exact absurd hd' hd
  | some d =>
    have e1 : step r (.updateFee v f b true) = { r with fees := KV.set r.fees v (f : Int).natAbs, data := KV.set r.data v ((f : Int), b) } :=
      if_pos (by rw [hg, hd']; rfl)
    rw [e1]
    show KV.get (KV.set r.fees v (f : Int).natAbs) v = some f
    rw [KV.get_set, if_pos rfl]
    rfl

example : (∃ g, Asks sample 1 g) ∧ KV.get sample.data 1 ≠ none ∧ Asks (step sample (.updateFee 1 70 9 true)) 1 70 :=
  ⟨⟨50, by unfold Asks; decide +kernel⟩, by decide +kernel, by unfold Asks; decide +kernel⟩

/-- Without a fee, in another denomination, or without data under the sender's account, a change of fee does nothing. -/
theorem update_fee_refused (r : Reg) (v : Nat) (f b : Int) (bond : Bool)
    (h : (∀ g, ¬ Asks r v g) ∨ bond = false ∨ KV.get r.data v = none) : step r (.updateFee v f b bond) = r := by
  refine if_neg (fun e1 => ?_)
  simp only [Bool.and_eq_true] at e1
  rcases h with h | h | h
  · obtain ⟨g, hg⟩ := Option.isSome_iff_exists.1 e1.1.1
    exact h g hg
  · rw [h] at e1
    cases e1.1.2
  · rw [h] at e1
    cases e1.2

/-- A validator that was its own orchestrator and leaves can register again in the same way. -/
theorem register_again_partial (r : Reg) (v e e' : Nat) (hv : r.vals v = true) (ha : r.allowed v = true) :
    Acts (run r [.unset v e, .register v v e']) v v ∧ Signs (run r [.unset v e, .register v v e']) v e' := by
  obtain ⟨h1, _, h3, _⟩ := unset_exact r v e
  have := (register_exact (step r (.unset v e)) v v e').1 ⟨hv, h3, h1, ha⟩
  exact ⟨this.1, this.2.1⟩

example : sample.vals 1 = true ∧ sample.allowed 1 = true := by decide +kernel

/-- The listing of registrations panics exactly if a validator has an address but no orchestrator. -/
theorem listing_panics_iff (ops : List Op) :
    listing (run init ops).orch (run init ops).eth = none ↔
      ∃ v e, Signs (run init ops) v e ∧ ∀ o, ¬ Acts (run init ops) o v := by
  have ht := tidy_run tidy_init ops
  generalize run init ops = r at ht
  rw [listing_none]
  constructor
  · rintro ⟨⟨v, e⟩, hx, hn⟩
    exact ⟨v, e, KV.get_of_mem ht.eth hx, fun o ho => orchOf_none.1 hn _ (KV.mem_of_get ho) rfl⟩
  · rintro ⟨v, e, hs, hn⟩
    refine ⟨(v, e), KV.mem_of_get hs, orchOf_none.2 fun x hx e1 => hn x.1 ?_⟩
    have e1 : x.2 = v := e1
    exact KV.get_of_mem ht.orch (show (x.1, v) ∈ r.orch by rw [← e1]; exact hx)

/-- If messages are careful, the listing has exactly the registrations, each with its orchestrator and its address. -/
theorem listing_partial (ops : List Op) (h : Careful init ops) :
    ∃ es, listing (run init ops).orch (run init ops).eth = some es ∧
      ∀ v o e, (∃ x ∈ es, x.val = v ∧ x.orch = o ∧ x.eth = e) ↔ Acts (run init ops) o v ∧ Signs (run init ops) v e := by
  have hs := sound_partial ops h
  have ht := tidy_run tidy_init ops
  cases hl : listing (run init ops).orch (run init ops).eth with
  | none =>
    obtain ⟨v, e, h1, h2⟩ := (listing_panics_iff ops).1 hl
    obtain ⟨o, ho⟩ := hs.signs_acts h1
    exact absurd ho (h2 o)
  | some es =>
    refine ⟨es, rfl, fun v o e => ⟨?_, fun ⟨h1, h2⟩ => ?_⟩⟩
    · rintro ⟨x, hx, rfl, rfl, rfl⟩
      obtain ⟨_, h1, h2⟩ := (listing_mem hl x).1 hx
      exact ⟨KV.get_of_mem ht.orch (orchOf_some h2), KV.get_of_mem ht.eth h1⟩
    · refine ⟨⟨0, v, o, e⟩, (listing_mem hl _).2 ⟨rfl, KV.mem_of_get h2, ?_⟩, rfl, rfl, rfl⟩
      cases ho : orchOf (run init ops).orch v with
      | none => exact absurd rfl (orchOf_none.1 ho _ (KV.mem_of_get h1))
      | some p =>
        have hp : Acts (run init ops) p v := KV.get_of_mem ht.orch (orchOf_some ho)
        exact congrArg some (hs.one hp h1)

example : listing sample.orch sample.eth = some [⟨0, 2, 20, 200⟩, ⟨0, 1, 1, 1⟩] ∨
    listing sample.orch sample.eth = some [⟨0, 1, 1, 1⟩, ⟨0, 2, 20, 200⟩] := by decide +kernel

/-- Counterexample: a validator leaves; its orchestrator, another account, goes on acting for it, and cannot be registered again. -/
theorem votes_after_leaving : ∃ r : Reg, r = run init [.setVal 2 true, .register 2 20 200, .unset 2 200] ∧
    Acts r 20 2 ∧ (∀ e, ¬ Signs r 2 e) ∧ step r (.register 2 20 200) = r :=
  ⟨_, rfl, by unfold Acts; decide +kernel, fun e => by unfold Signs; exact fun h => (nomatch h), rfl⟩

/-- Counterexample: by leaving and registering again, a validator has two orchestrators. -/
theorem two_orchestrators : ∃ r : Reg, r = run init [.setVal 2 true, .register 2 20 200, .unset 2 200, .register 2 21 200] ∧
    Acts r 20 2 ∧ Acts r 21 2 ∧ Signs r 2 200 :=
  ⟨_, rfl, by unfold Acts; decide +kernel, by unfold Acts; decide +kernel, by unfold Signs; decide +kernel⟩

/-- Counterexample: two validators sign with one address, and only the later one answers for it. -/
theorem shared_address : ∃ r : Reg, r = run init [.setVal 1 true, .setVal 2 true, .register 1 10 100, .register 2 20 100] ∧
    Signs r 1 100 ∧ Signs r 2 100 ∧ Answers r 100 2 :=
  ⟨_, rfl, by unfold Signs; decide +kernel, by unfold Signs; decide +kernel, by unfold Answers; decide +kernel⟩

/-- Counterexample: an account that is no validator takes away that a validator answers for its address, so evidence against it finds nobody. -/
theorem others_link_removed : ∃ r : Reg, r = run init [.setVal 1 true, .register 1 10 100, .unset 77 100] ∧
    r.vals 77 = false ∧ Acts r 10 1 ∧ Signs r 1 100 ∧ ∀ w, ¬ Answers r 100 w :=
  ⟨_, rfl, by decide +kernel, by unfold Acts; decide +kernel, by unfold Signs; decide +kernel, fun w => by unfold Answers; exact fun h => (nomatch h)⟩

/-- Counterexample: an orchestrator leaves by itself, and then the listing, and with it the export of the state, panics. -/
theorem listing_can_panic : ∃ r : Reg, r = run init [.setVal 1 true, .register 1 10 100, .unset 10 0] ∧ listing r.orch r.eth = none :=
  ⟨_, rfl, by decide +kernel⟩

/-- Counterexample: a negative fee is stored as its magnitude. -/
theorem negative_fee : ∃ r : Reg, r = run init [.setVal 1 true, .registerFee 1 1 (-50) 0 true] ∧ Asks r 1 50 :=
  ⟨_, rfl, by unfold Asks; decide +kernel⟩

/-- Counterexample: a validator with a separate orchestrator cannot change its fee. -/
theorem fee_cannot_change : ∃ r : Reg, r = run init [.setVal 1 true, .registerFee 1 10 50 0 true] ∧ Asks r 1 50 ∧
    ∀ f b bond, step r (.updateFee 1 f b bond) = r :=
  ⟨_, rfl, by unfold Asks; decide +kernel, fun f b bond => update_fee_refused _ 1 f b bond (Or.inr (Or.inr (by decide +kernel)))⟩

/-- Counterexample: a deleted fee can be set neither by changing it nor by registering; the validator has to leave first. -/
theorem deleted_fee_stays : ∃ r : Reg, r = run init [.setVal 1 true, .registerFee 1 1 50 0 true, .deleteFee 1] ∧ Signs r 1 1 ∧
    (∀ f b bond, step r (.updateFee 1 f b bond) = r) ∧ ∀ o f b bond, step r (.registerFee 1 o f b bond) = r :=
  ⟨_, rfl, by unfold Signs; decide +kernel,
    fun f b bond => update_fee_refused _ 1 f b bond (Or.inl fun g => by unfold Asks; exact fun h => (nomatch h)),
    fun o f b bond => register_fee_refused _ 1 o f b bond (Or.inr (Or.inr (Or.inr (Or.inl ⟨1, by unfold Signs; decide +kernel⟩))))⟩

/-- What is exported is not there after the import, for every bridge but number 0: the listing does not say which bridge it is of. -/
theorem export_is_lost (h : Nat) (hh : h ≠ 0) (r : Reg) (es : List Entry) (he : listing r.orch r.eth = some es) :
    imported h es init = init :=
  imported_none es (fun x hx e => hh (by rw [← e]; exact ((listing_mem he x).1 hx).1)) init

example : listing sample.orch sample.eth ≠ none ∧ listing sample.orch sample.eth ≠ some [] := by decide +kernel

end Hyperion.Orch
