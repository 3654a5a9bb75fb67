import Verif.Ante.RoutesLemmas

/-!
# Ethereum transactions enter the chain only as themselves
-/

namespace Routes

/-- A hash for the examples. -/
def demoHash : EthData → Nat := fun d => 1000000 * d.rest + d.gas

/-- An Ethereum transaction for the examples. -/
def demoData : EthData := ⟨7, 21000, 42000⟩

/-- A harmless message. -/
def send : Msg := .other "/cosmos.bank.v1beta1.MsgSend" []

/-- A Cosmos transaction with these messages. -/
def cosmosTx (msgs : List Msg) : Tx :=
  ⟨msgs, "hello", 0, [], 0, 1, "", "", [("ahelios", 10)], 200000, 1⟩

/-- **The limiter, exactly.** The messages of a Cosmos transaction pass exactly if no disabled type
is granted and none is inside a `MsgExec`, at whatever depth, and no ladder into `MsgExec` messages
costs more than five. -/
theorem limiter_exact (msgs : List Msg) :
    limiter msgs = true ↔ ¬ Forbidden msgs ∧ ∀ r target, Ladder r msgs target → r ≤ 5 := by
  unfold limiter
  rw [show decide (1 < maxNested) = true from rfl, Bool.true_and, allowed_iff]
  constructor
  · intro hs
    refine ⟨?_, ?_⟩
    · rintro (⟨d, url, hw, hd⟩ | ⟨d, url, c, hw, hd⟩ | ⟨d, m, hw⟩)
      · exact hs.grants _ _ hw hd
      · exact hs.others _ _ _ hw (Or.inr (Nat.succ_pos _)) hd
      · exact hs.eths _ _ hw (Or.inr (Nat.succ_pos _))
    · intro r t hl
      rcases hs.ladders _ _ hl with e | e
      · omega
      · have : maxNested = 7 := rfl
        omega
  · rintro ⟨hf, hl⟩
    refine ⟨?_, ?_, ?_, ?_⟩
    · exact fun d url hw hd => hf (Or.inl ⟨d, url, hw, hd⟩)
    · intro d url c hw hd hu
      rcases hd with hd | hd
      · exact nomatch hd
      · obtain ⟨d', rfl⟩ := Nat.exists_eq_succ_of_ne_zero (Nat.ne_of_gt hd)
        exact hf (Or.inr (Or.inl ⟨d', url, c, hw, hu⟩))
    · intro d m hw hd
      rcases hd with hd | hd
      · exact nomatch hd
      · obtain ⟨d', rfl⟩ := Nat.exists_eq_succ_of_ne_zero (Nat.ne_of_gt hd)
        exact hf (Or.inr (Or.inr ⟨d', m, hw⟩))
    · intro r t h
      have := hl r t h
      have : maxNested = 7 := rfl
      omega

example : limiter [send, .exec [send, .exec [.exec [.grant "/a"]]], send] = true ∧
    limiter [send, .exec [send, .exec [.exec [.grant ethUrl]]]] = false ∧
    limiter [.exec [.exec [.eth ⟨demoData, 0, 0, ""⟩]]] = false ∧
    limiter [.other vestingUrl []] = true ∧
    limiter [.exec [.other vestingUrl []]] = false ∧
    limiter [.exec [.exec [.exec [.exec [.exec [send]]]]]] = true ∧
    limiter [.exec [.exec [.exec [.exec [.exec [.exec [send]]]]]]] = false := by
  decide +kernel

/-- **Depth.** In a transaction that passes no message is wrapped more than five times. -/
theorem limiter_depth {msgs : List Msg} (h : limiter msgs = true) {d : Nat} {m : Msg}
    (hw : Within d m msgs) : d ≤ 5 := by
  obtain ⟨r, t, hl, hd, _⟩ := ladder_of_within hw
  exact Nat.le_trans hd (((limiter_exact msgs).1 h).2 r t hl)

example : limiter [.exec [.exec [send]]] = true ∧ Within 2 send [.exec [.exec [send]]] :=
  ⟨by decide +kernel,
    .wrapped List.mem_cons_self (.wrapped List.mem_cons_self (.listed List.mem_cons_self))⟩

/-- **Siblings count as nesting.** The limit on the depth is really a limit on a sum: six harmless
`MsgExec` messages side by side, none inside another, are refused, five are not. -/
theorem siblings_count_as_nesting :
    limiter [.exec [send], .exec [send], .exec [send], .exec [send], .exec [send]] = true ∧
    limiter [.exec [send], .exec [send], .exec [send], .exec [send], .exec [send],
      .exec [send]] = false := by
  decide +kernel

theorem admits_cases {hashOf : EthData → Nat} {denom : String} {factor : Nat} {tx : Tx}
    (h : admits hashOf denom factor tx = true) :
    (noEth tx.msgs = true ∧ limiter tx.msgs = true) ∨
      (tx.options.head? = some .ethereum ∧ monoAdmits hashOf denom factor tx = true) := by
  unfold admits route at h
  cases ho : tx.options with
  | nil =>
    rw [ho] at h
    dsimp only at h
    rw [Bool.and_eq_true] at h
    exact Or.inl h
  | cons o rest =>
    rw [ho] at h
    cases o with
    | web3 =>
      dsimp only at h
      rw [Bool.and_eq_true] at h
      exact Or.inl h
    | dynamicFee =>
      dsimp only at h
      rw [Bool.and_eq_true] at h
      exact Or.inl h
    | unknown => exact nomatch h
    | ethereum => exact Or.inr ⟨rfl, h⟩

/-- What the mono decorator says of an envelope. -/
theorem mono_envelope {hashOf : EthData → Nat} {denom : String} {factor : Nat} {tx : Tx}
    (h : monoAdmits hashOf denom factor tx = true) :
    ∃ ms : List EthMsg, tx.msgs = ms.map .eth ∧ ms ≠ [] ∧
      (∀ m ∈ ms, m.size = 0 ∧ m.data.gas ≠ 0 ∧ m.data.gas < 9223372036854775808 ∧
        m.hash = hashOf m.data ∧ m.sender = "") ∧
      (tx.memo = "" ∧ tx.timeout = 0 ∧ tx.nonCritical = 0 ∧ tx.options.length = 1 ∧
        tx.signers = 0 ∧ tx.payer = "" ∧ tx.granter = "" ∧ tx.signatures = 0) ∧
      amountOf denom tx.fee = (ms.map fun m => m.data.fee).sum / factor ∧
      tx.gasLimit = (ms.map fun m => m.data.gas).sum % 18446744073709551616 := by
  unfold monoAdmits at h
  rw [Bool.and_eq_true, Bool.and_eq_true, decide_eq_true_iff] at h
  obtain ⟨⟨hp, hn⟩, ht⟩ := h
  cases hs : totals hashOf tx.msgs with
  | none => rw [hs] at ht; exact nomatch ht
  | some p =>
    obtain ⟨fee, gas⟩ := p
    rw [hs] at ht
    dsimp only at ht
    unfold feeMatches at ht
    rw [Bool.and_eq_true, decide_eq_true_iff, decide_eq_true_iff] at ht
    obtain ⟨ms, e, hok, hf, hg⟩ := totals_some hs
    unfold plain at hp
    rw [Bool.and_eq_true, Bool.and_eq_true, Bool.and_eq_true, Bool.and_eq_true, Bool.and_eq_true,
      Bool.and_eq_true, Bool.and_eq_true, decide_eq_true_iff, decide_eq_true_iff,
      decide_eq_true_iff, decide_eq_true_iff, decide_eq_true_iff, decide_eq_true_iff,
      decide_eq_true_iff, decide_eq_true_iff] at hp
    obtain ⟨⟨⟨⟨⟨⟨⟨h1, h2⟩, h3⟩, h4⟩, h5⟩, h6⟩, h7⟩, h8⟩ := hp
    refine ⟨ms, e, ?_, hok, ⟨h1, h2, h3, h4, h5, h6, h7, h8⟩, ?_, ?_⟩
    · intro hnil
      rw [e, hnil] at hn
      exact hn rfl
    · rw [ht.1, hf]
    · rw [ht.2, hg]

/-- **One way in.** An Ethereum transaction in an admitted Cosmos transaction, however deep inside
`MsgExec` messages, is not inside one at all: it stands at the top, the only extension option is
the Ethereum one, and everything beside it is an Ethereum transaction too. -/
theorem eth_only_by_its_route {hashOf : EthData → Nat} {denom : String} {factor : Nat} {tx : Tx}
    (h : admits hashOf denom factor tx = true) {d : Nat} {m : EthMsg}
    (hw : Within d (.eth m) tx.msgs) :
    d = 0 ∧ tx.options = [.ethereum] ∧ ∀ x ∈ tx.msgs, ∃ m', x = .eth m' := by
  rcases admits_cases h with ⟨hn, hl⟩ | ⟨ho, hm⟩
  · exfalso
    cases d with
    | zero =>
      cases hw with
      | listed hm => exact (noEth_iff _).1 hn m hm
    | succ d => exact ((limiter_exact _).1 hl).1 (Or.inr (Or.inr ⟨d, m, hw⟩))
  · obtain ⟨ms, e, _, _, henv, _⟩ := mono_envelope hm
    have hall : ∀ x ∈ tx.msgs, ∃ m', x = .eth m' := by
      intro x hx
      rw [e] at hx
      obtain ⟨m', _, hm'⟩ := List.mem_map.1 hx
      exact ⟨m', hm'.symm⟩
    refine ⟨?_, ?_, hall⟩
    · cases hw with
      | listed _ => rfl
      | wrapped he _ =>
        obtain ⟨m', hm'⟩ := hall _ he
        exact nomatch hm'
    · cases hopt : tx.options with
      | nil => rw [hopt] at ho; exact nomatch ho
      | cons o rest =>
        rw [hopt] at ho
        injection ho with ho
        have hlen := henv.2.2.2.1
        rw [hopt, List.length_cons] at hlen
        have hnil : rest = [] := List.eq_nil_of_length_eq_zero (by omega)
        rw [ho, hnil]

example : admits demoHash "ahelios" 1 (build demoHash "ahelios" 1 demoData) = true ∧
    admits demoHash "ahelios" 1 (cosmosTx [send, .exec [send]]) = true ∧
    admits demoHash "ahelios" 1 (cosmosTx [send, .eth ⟨demoData, 0, 0, ""⟩]) = false ∧
    admits demoHash "ahelios" 1
      { build demoHash "ahelios" 1 demoData with options := [.ethereum, .web3] } = false ∧
    admits demoHash "ahelios" 1
      { build demoHash "ahelios" 1 demoData with
        msgs := (build demoHash "ahelios" 1 demoData).msgs ++ [send] } = false := by
  decide +kernel

/-- **No smuggling of vesting accounts.** No admitted transaction creates a vesting account inside a
`MsgExec`, and none grants the right to create one or to send an Ethereum transaction. -/
theorem disabled_not_delegated {hashOf : EthData → Nat} {denom : String} {factor : Nat} {tx : Tx}
    (h : admits hashOf denom factor tx = true) :
    (∀ d carried, ¬ Within (d + 1) (.other vestingUrl carried) tx.msgs) ∧
    (∀ d, ¬ Within d (.grant vestingUrl) tx.msgs) ∧ (∀ d, ¬ Within d (.grant ethUrl) tx.msgs) := by
  rcases admits_cases h with ⟨hn, hl⟩ | ⟨ho, hm⟩
  · have hf := ((limiter_exact _).1 hl).1
    exact ⟨fun d c hw => hf (Or.inr (Or.inl ⟨d, _, c, hw, by decide⟩)),
      fun d hw => hf (Or.inl ⟨d, _, hw, by decide⟩), fun d hw => hf (Or.inl ⟨d, _, hw, by decide⟩)⟩
  · obtain ⟨ms, e, _⟩ := mono_envelope hm
    have hall : ∀ d x, Within d x tx.msgs → ∃ m', x = .eth m' := by
      intro d x hw
      cases hw with
      | listed hx =>
        rw [e] at hx
        obtain ⟨m', _, hm'⟩ := List.mem_map.1 hx
        exact ⟨m', hm'.symm⟩
      | wrapped he _ =>
        rw [e] at he
        obtain ⟨m', _, hm'⟩ := List.mem_map.1 he
        exact nomatch hm'
    exact ⟨fun d c hw => (by obtain ⟨_, e⟩ := hall _ _ hw; exact nomatch e),
      fun d hw => (by obtain ⟨_, e⟩ := hall _ _ hw; exact nomatch e),
      fun d hw => (by obtain ⟨_, e⟩ := hall _ _ hw; exact nomatch e)⟩

example : admits demoHash "ahelios" 1 (cosmosTx [.other vestingUrl [], .grant "/a"]) = true := by
  decide +kernel

/-- **The node's own envelope.** The envelope the node builds around an Ethereum transaction with a
gas limit between one and `2^63 - 1` is admitted. -/
theorem built_is_admitted (hashOf : EthData → Nat) (denom : String) (factor : Nat) (d : EthData)
    (h1 : 0 < d.gas) (h2 : d.gas < 9223372036854775808) :
    admits hashOf denom factor (build hashOf denom factor d) = true := by
  have hb : basic hashOf ⟨d, 0, hashOf d, ""⟩ = true := by
    unfold basic
    rw [Bool.and_eq_true, Bool.and_eq_true, Bool.and_eq_true, Bool.and_eq_true,
      decide_eq_true_iff, decide_eq_true_iff, decide_eq_true_iff, decide_eq_true_iff,
      decide_eq_true_iff]
    exact ⟨⟨⟨⟨rfl, Nat.ne_of_gt h1⟩, h2⟩, rfl⟩, rfl⟩
  have ht : totals hashOf (build hashOf denom factor d).msgs = some (d.fee, d.gas) := by
    show totals hashOf [.eth ⟨d, 0, hashOf d, ""⟩] = _
    unfold totals
    rw [if_pos hb]
    show some (d.fee + 0, (d.gas + 0) % 18446744073709551616) = _
    rw [Nat.add_zero, Nat.add_zero, Nat.mod_eq_of_lt (by omega)]
  show monoAdmits hashOf denom factor (build hashOf denom factor d) = true
  unfold monoAdmits
  rw [ht, Bool.and_eq_true]
  refine ⟨rfl, ?_⟩
  dsimp only
  unfold feeMatches
  rw [Bool.and_eq_true, decide_eq_true_iff, decide_eq_true_iff]
  refine ⟨?_, rfl⟩
  show amountOf denom (if 0 < d.fee then [(denom, d.fee / factor)] else []) = _
  by_cases hf : 0 < d.fee
  · rw [if_pos hf]
    show (if denom = denom then _ else _) = _
    rw [if_pos rfl]
  · rw [if_neg hf]
    have : d.fee = 0 := by omega
    rw [this, Nat.zero_div]
    rfl

example : 0 < demoData.gas ∧ demoData.gas < 9223372036854775808 := by decide

/-- **One envelope, as far as it goes.** The full property is: the envelope of an admitted
Ethereum transaction is the one the node builds, so that nobody can change it on the way. It is
proved for every field but the fee coins, of which only the amount of the EVM denomination is
settled (`other_fee_coins_are_ignored`). -/
theorem eth_envelope_partial {hashOf : EthData → Nat} {denom : String} {factor : Nat} {tx : Tx}
    (h : admits hashOf denom factor tx = true) {m : EthMsg} (hm : tx.msgs = [.eth m]) :
    tx = { build hashOf denom factor m.data with fee := tx.fee } ∧
      amountOf denom tx.fee = amountOf denom (build hashOf denom factor m.data).fee := by
  have hroute := eth_only_by_its_route h (d := 0) (m := m) (.listed (by rw [hm]; exact List.mem_cons_self))
  rcases admits_cases h with ⟨hn, _⟩ | ⟨_, hmono⟩
  · rw [hm] at hn
    exact nomatch hn
  · obtain ⟨ms, e, _, hok, ⟨h1, h2, h3, h4, h5, h6, h7, h8⟩, hfee, hgas⟩ := mono_envelope hmono
    have hms : ms = [m] := by
      rw [hm] at e
      cases ms with
      | nil => exact nomatch e
      | cons a as =>
        rw [List.map_cons] at e
        injection e with e1 e2
        injection e1 with e1
        cases as with
        | nil => rw [e1]
        | cons b bs => exact nomatch e2
    subst hms
    obtain ⟨a1, a2, a3, a4, a5⟩ := hok m List.mem_cons_self
    have hgas' : tx.gasLimit = m.data.gas := by
      rw [hgas]
      show (m.data.gas + 0) % _ = _
      rw [Nat.add_zero, Nat.mod_eq_of_lt (by omega)]
    have hfee' : amountOf denom tx.fee = m.data.fee / factor := by
      rw [hfee]
      rfl
    refine ⟨?_, ?_⟩
    · have hmm : m = ⟨m.data, 0, hashOf m.data, ""⟩ := by
        cases m with
        | mk dd ss hh se =>
          dsimp only at a1 a4 a5
          rw [a1, a4, a5]
      have hopt := hroute.2.1
      cases tx with
      | mk msgs memo timeout options nonCritical signers payer granter fee gasLimit signatures =>
        dsimp only at h1 h2 h3 h5 h6 h7 h8 hgas' hopt hm
        unfold build
        dsimp only
        rw [h1, h2, h3, h5, h6, h7, h8, hgas', hopt, hm, ← hmm]
    · rw [hfee']
      unfold build
      dsimp only
      by_cases hf : 0 < m.data.fee
      · rw [if_pos hf]
        show _ = (if denom = denom then _ else _)
        rw [if_pos rfl]
      · rw [if_neg hf]
        have : m.data.fee = 0 := by omega
        rw [this, Nat.zero_div]
        rfl

example : admits demoHash "ahelios" 1 (build demoHash "ahelios" 1 demoData) = true ∧
    admits demoHash "ahelios" 1 { build demoHash "ahelios" 1 demoData with memo := "x" } = false ∧
    admits demoHash "ahelios" 1 { build demoHash "ahelios" 1 demoData with gasLimit := 1 } = false ∧
    admits demoHash "ahelios" 1 { build demoHash "ahelios" 1 demoData with fee := [] } = false := by
  decide +kernel

/-- Coins of other denominations in the fee of the envelope are not looked at: the same Ethereum
transaction is admitted in two different envelopes, so with two different Cosmos hashes. -/
theorem other_fee_coins_are_ignored :
    admits demoHash "ahelios" 1 (build demoHash "ahelios" 1 demoData) = true ∧
    admits demoHash "ahelios" 1
      { build demoHash "ahelios" 1 demoData with fee := [("ahelios", 42000), ("other", 5)] } =
      true := by
  decide +kernel

/-- **Proposals are not searched.** The decorators look into `MsgExec` only: an Ethereum message
carried by a governance proposal, even one inside a `MsgExec`, is let through. -/
theorem proposals_are_not_searched :
    admits demoHash "ahelios" 1
      (cosmosTx [.exec [.other "/cosmos.gov.v1.MsgSubmitProposal" [.eth ⟨demoData, 0, 0, ""⟩]]]) =
      true := by
  decide +kernel

end Routes
