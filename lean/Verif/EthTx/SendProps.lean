import Verif.EthTx.SendLemmas
/-!
# C89: what a node sends for its user

Proved: a transaction given signed goes out as it is, under its own hash, exactly if it is admissible; one that
the node signs has every field that was asked for, for the node's own chain, and the ones left open filled in
from the node; contradictory arguments are refused; and the next nonce of an account is the first free one while
at most thirty transactions are pending and those of the account are all of Ethereum, one nonce after the other.

Shown false: that the next nonce is free with more transactions pending or with others of the same account; that
pending transactions can be sent again with more gas; that the node's limit on fees limits what is sent.
-/

namespace Send

open Addr Wrap

/-! ## Signed transactions -/

/-- **C89 (sent as given).** The message that goes out for a signed transaction stands for that transaction, and
the answer is its hash. It goes out exactly if it is admissible and, unless the node is told otherwise, bound to a
chain. -/
theorem raw_sent (up : List Nat → Nat → Bool) (H : Tx → List Nat) (unprotected : Bool) (isProtected : Tx → Bool)
    (tx : Tx) (hd : Decoded tx) :
    (∀ s, sendRaw up H unprotected isProtected tx = some s →
      asTx s.msg.data = tx ∧ s.hash = H tx ∧ s.msg.hash = hashString (H tx)) ∧
    ((sendRaw up H unprotected isProtected tx).isSome = true ↔
      (unprotected = true ∨ isProtected tx = true) ∧ AmountsFit tx ∧ ChainFits tx ∧ Admissible tx) := by
  have hw := wrap_outcome up H tx hd
  unfold sendRaw
  by_cases hp : (!unprotected && !isProtected tx) = true
  · rw [if_pos hp]
    have hu : unprotected = false ∧ isProtected tx = false := by
      rw [Bool.and_eq_true, Bool.not_eq_true', Bool.not_eq_true'] at hp
      exact hp
    refine ⟨(fun s h => nomatch h), (fun h => nomatch h), fun ⟨h, _⟩ => ?_⟩
    rcases h with h | h
    · rw [hu.1] at h; cases h
    · rw [hu.2] at h; cases h
  · rw [if_neg hp]
    have hu : unprotected = true ∨ isProtected tx = true := by
      cases unprotected <;> cases h : isProtected tx <;> simp_all
    cases hf : fromTx up H tx with
    | ok m =>
      dsimp only
      have hr := wrap_roundtrip up H tx hd m hf
      have ha := wrapped_admitted up H tx hd m hf
      have hfit := hw.1.1 (by rw [hf]; rfl)
      by_cases hb : basic H m = true
      · rw [if_pos hb]
        refine ⟨fun s h => ?_, fun _ => ⟨hu, hfit.1, hfit.2, ha.1 hb⟩, fun _ => rfl⟩
        cases h
        exact ⟨hr.1, by rw [hr.1], hr.2.1⟩
      · rw [if_neg hb]
        exact ⟨(fun s h => nomatch h), (fun h => nomatch h), fun h => absurd (ha.2 h.2.2.2) hb⟩
    | error =>
      dsimp only
      exact ⟨(fun s h => nomatch h), (fun h => nomatch h), fun h => absurd h.2.1 (hw.2.1.1 hf)⟩
    | panic =>
      dsimp only
      exact ⟨(fun s h => nomatch h), (fun h => nomatch h), fun h => absurd h.2.2.1 (hw.2.2.1 hf).2⟩

example : Decoded wallet ∧ (sendRaw caps toyHash false (fun _ => true) wallet).isSome = true :=
  ⟨wallet_decoded, by decide +kernel⟩

/-! ## Transactions the node signs -/

/-- **C89 (sent as asked).** What the node signs and sends for a user has every field that the user gave, and
nothing else besides: recipient, value, data (in either of its two fields), accesses; it names the node's own
chain. The sender is one of the node's accounts, and the hash answered is that of the transaction. -/
theorem sent_as_asked (up : List Nat → Nat → Bool) (H : Tx → List Nat) (n : Node) (keys : List (List Nat))
    (sign : List Nat → Tx → Option (Int × Int × Int)) (unprotected : Bool) (isProtected : Tx → Bool) (a : Args)
    (hsign : ∀ who tx v r s, sign who tx = some (v, r, s) → 0 ≤ v ∧ 0 ≤ r ∧ 0 ≤ s)
    (hprop : Proper a) (out : Sent) (h : sendTx up H n keys sign unprotected isProtected a = some out) :
    Asked a n.chain (asTx out.msg.data) ∧ out.hash = H (asTx out.msg.data) ∧
    out.msg.hash = hashString out.hash ∧ a.sender.getD (List.replicate 20 0) ∈ keys ∧
    Admissible (asTx out.msg.data) ∧
    -- the fields left open
    (a.nonce = none → (asTx out.msg.data).nonce = n.next) ∧
    (a.gas = none → ∃ c, n.estimate c = some (asTx out.msg.data).gas) ∧
    (a.price = none → ∀ base, n.base = some base → ∃ t c, capsOf (asTx out.msg.data).kind = some (t, c) ∧ t ≤ c ∧
      (a.tip = none → ∃ s : Nat, n.suggest = some s ∧ t = (s : Int)) ∧
      (a.cap = none → c = t + 2 * (base : Int))) ∧
    -- contradictions are refused
    (a.price = none ∨ a.tip = none ∧ a.cap = none) ∧ (∀ d i, a.data = some d → a.input = some i → d = i) ∧
    (a.to = none → (asTx out.msg.data).data ≠ []) ∧ (∀ c, a.chain = some c → c = n.chain) := by
  unfold sendTx at h
  dsimp only at h
  split at h
  · rename_i hk
    split at h
    · cases h
    · rename_i hc
      have hchain : ∀ c, a.chain = some c → c = n.chain := by
        intro c e
        rw [e] at hc
        by_cases e2 : c = n.chain
        · exact e2
        · exact absurd (by rw [Bool.and_eq_true, decide_eq_true_iff]; exact ⟨rfl, fun e3 => e2 (Option.some.inj e3)⟩) hc
      cases hset : setDefaults n a with
      | none => rw [hset] at h; cases h
      | some b =>
        rw [hset] at h
        dsimp only at h
        cases hs : sign (a.sender.getD (List.replicate 20 0)) (asTx (toData up b)) with
        | none => rw [hs] at h; cases h
        | some sig =>
          rw [hs] at h
          dsimp only at h
          -- what was filled in
          unfold setDefaults at hset
          cases hff : fillFees n a with
          | none => rw [hff] at hset; cases hset
          | some f =>
            rw [hff] at hset
            dsimp only at hset
            split at hset
            · rename_i hdo
              cases hfg : fillGas n (fillBasics n f) with
              | none => rw [hfg] at hset; cases hset
              | some g =>
                rw [hfg] at hset
                cases hset
                obtain ⟨gas, hg, hgas⟩ := fillGas_spec hfg
                obtain ⟨e1, e2, e3, e4, e5, e6, e7, e8, e9, hfee⟩ := fillFees_spec hff
                have hdat : (∀ d i, a.data = some d → a.input = some i → d = i) ∧ (a.to = none → a.bytes ≠ []) := by
                  unfold dataOk at hdo
                  rw [e2, e6, e7] at hdo
                  rw [Bool.and_eq_true] at hdo
                  obtain ⟨hd1, hd2⟩ := hdo
                  have h1 : ∀ d i, a.data = some d → a.input = some i → d = i := by
                    intro d i hd hi
                    by_cases e : d = i
                    · exact e
                    · rw [hd, hi] at hd1
                      have hx : decide (some d ≠ some i) = true := decide_eq_true (fun e' => e (Option.some.inj e'))
                      rw [hx] at hd1
                      cases hd1
                  refine ⟨h1, fun ht => ?_⟩
                  rw [ht] at hd2
                  unfold Args.bytes
                  cases hi : a.input with
                  | some i =>
                    dsimp only
                    intro e
                    cases hd : a.data with
                    | some d =>
                      rw [hd] at hd2
                      rw [h1 d i hd hi, e] at hd2
                      cases hd2
                    | none =>
                      rw [hd, hi] at hd2
                      rw [e] at hd2
                      cases hd2
                  | none =>
                    dsimp only
                    cases hd : a.data with
                    | some d =>
                      dsimp only
                      intro e
                      rw [hd, e] at hd2
                      cases hd2
                    | none => rw [hd, hi] at hd2; cases hd2
                -- the transaction
                subst hg
                have hch : (f.chain.getD n.chain) = n.chain := by
                  rw [e9]
                  cases hcc : a.chain with
                  | none => rfl
                  | some c => exact hchain c hcc
                let b : Args := { { fillBasics n f with gas := some gas } with chain := some (f.chain.getD n.chain) }
                have hacc := kind_accesses up f.accesses (by rw [e8]; exact hprop.2)
                have hto := to_text up f.to (by rw [e2]; exact hprop.1)
                have hv : 0 ≤ sig.1 ∧ 0 ≤ sig.2.1 ∧ 0 ≤ sig.2.2 := by
                  obtain ⟨v, r, s⟩ := sig
                  exact hsign _ _ v r s hs
                have hproper : IsAccesses (f.accesses.getD []) := by
                  rw [e8]
                  cases hl : a.accesses with
                  | none => intro t ht; cases ht
                  | some l => exact hprop.2 l hl
                -- its kind
                have hkind : ∃ k, kindOf (toData up b).kind = k ∧ accessesOf k = a.accesses.getD [] ∧
                    (∀ c, chainOf k = some c → c = (n.chain : Int)) ∧
                    (∀ p : Nat, b.price = some p → priceOf k = some (p : Int)) ∧
                    (∀ t c : Nat, b.tip = some t → b.cap = some c → capsOf k = some ((t : Int), (c : Int))) ∧
                    (match k with
                      | .legacy price => 0 ≤ price
                      | .access chain price l => 0 ≤ chain ∧ 0 ≤ price ∧ IsAccesses l
                      | .dynamic chain tip cap l => 0 ≤ chain ∧ 0 ≤ tip ∧ 0 ≤ cap ∧ IsAccesses l) := by
                  refine ⟨_, rfl, ?_⟩
                  rcases hfee with ⟨p, hp, hnt, hnc, _⟩ | ⟨t, c, ht, hcap, hnp, _⟩
                  · have hkk : (toData up b).kind = (match f.accesses with
                        | some l => .access (some ((n.chain : Nat) : Int)) (some (p : Int)) (textAccesses up l)
                        | none => .legacy (some (p : Int))) := by
                      show (match f.cap with
                        | some c => DataKind.dynamic _ _ _ _
                        | none => match f.accesses with
                          | some l => DataKind.access (some (((f.chain.getD n.chain) : Nat) : Int)) (f.price.map Int.ofNat) (textAccesses up l)
                          | none => DataKind.legacy (f.price.map Int.ofNat)) = _
                      rw [hnc, hp, hch]
                      rfl
                    rw [hkk]
                    have hpb : b.price = some p := hp
                    have htb : b.tip = none := hnt
                    rw [hpb, htb]
                    cases hl : f.accesses with
                    | none =>
                      rw [hl] at hacc
                      dsimp only
                      refine ⟨by rw [← e8, hl]; rfl, (fun c h => nomatch h), fun q hq => by cases hq; rfl, (fun t c h => nomatch h), ?_⟩
                      exact Int.natCast_nonneg p
                    | some l =>
                      rw [hl] at hacc hproper
                      dsimp only at hacc ⊢
                      refine ⟨by rw [← e8, hl]; exact hacc, fun c h => ?_, fun q hq => by cases hq; rfl, (fun t c h => nomatch h), ?_⟩
                      · exact (Option.some.inj h).symm
                      · refine ⟨Int.natCast_nonneg _, Int.natCast_nonneg _, ?_⟩
                        show IsAccesses (readAccesses (accText up (some l)))
                        rw [hacc]; exact hproper
                  · have hkk : (toData up b).kind = .dynamic (some ((n.chain : Nat) : Int)) (some (t : Int)) (some (c : Int))
                        (accText up f.accesses) := by
                      show (match f.cap with
                        | some c => DataKind.dynamic (some (((f.chain.getD n.chain) : Nat) : Int)) (f.tip.map Int.ofNat) (some (c : Int))
                          (accText up f.accesses)
                        | none => _) = _
                      rw [hcap, ht, hch]
                      rfl
                    rw [hkk]
                    have hpb : b.price = none := hnp
                    have htb : b.tip = some t := ht
                    have hcb : b.cap = some c := hcap
                    rw [hpb, htb, hcb]
                    refine ⟨?_, fun x h => (Option.some.inj h).symm, (fun q h => nomatch h), fun t' c' h1 h2 => by cases h1; cases h2; rfl, ?_⟩
                    · rw [← e8]; exact hacc
                    · refine ⟨Int.natCast_nonneg _, Int.natCast_nonneg _, Int.natCast_nonneg _, ?_⟩
                      rw [hacc]; exact hproper
                obtain ⟨k, hk1, hk2, hk3, hk4, hk5, hk6⟩ := hkind
                have hdec : Decoded (withSignature (asTx (toData up b)) sig) := by
                  refine ⟨?_, ?_, ?_, hv⟩
                  · show (match kindOf (toData up b).kind with
                      | .legacy price => 0 ≤ price
                      | .access chain price l => 0 ≤ chain ∧ 0 ≤ price ∧ IsAccesses l
                      | .dynamic chain tip cap l => 0 ≤ chain ∧ 0 ≤ tip ∧ 0 ≤ cap ∧ IsAccesses l)
                    rw [hk1]; exact hk6
                  · intro x hx
                    have hx' : (if toText up f.to = [] then none else some (hexToAddress (toText up f.to))) = some x := hx
                    rw [hto, e2] at hx'
                    exact hprop.1 x hx'
                  · exact Int.natCast_nonneg _
                have h : post up H unprotected isProtected (withSignature (asTx (toData up b)) sig) = some out := h
                unfold post at h
                cases hf : fromTx up H (withSignature (asTx (toData up b)) sig) with
                | error => rw [hf] at h; cases h
                | panic => rw [hf] at h; cases h
                | ok m =>
                  rw [hf] at h
                  dsimp only at h
                  split at h
                  · rename_i hb
                    split at h
                    · cases h
                    · cases h
                      have hr := wrap_roundtrip up H _ hdec m hf
                      have had := (wrapped_admitted up H _ hdec m hf).1 hb
                      dsimp only
                      rw [hr.1]
                      have hfb : f.bytes = a.bytes := by unfold Args.bytes; rw [e6, e7]
                      have hdata : (withSignature (asTx (toData up b)) sig).data = a.bytes := hfb
                      refine ⟨⟨?_, ?_, ?_, ?_, ?_, ?_, ?_, ?_, ?_, ?_, ?_, ?_⟩, rfl, hr.2.1, hk, had, ?_, ?_, ?_, ?_, hdat.1, ?_, hchain⟩
                      · intro q hq
                        show (f.nonce.getD n.next) = q
                        rw [e5, hq]; rfl
                      · intro q hq
                        show gas = q
                        rcases hgas with hgas | ⟨hgas, _⟩
                        · exact Option.some.inj ((show f.gas = some gas from hgas).symm.trans (e3.trans hq))
                        · have : f.gas = none := hgas
                          rw [e3, hq] at this; cases this
                      · exact hto.trans e2
                      · show (((f.value.getD 0) : Nat) : Int) = _
                        rw [e4]
                      · intro d hd
                        rw [hdata]
                        unfold Args.bytes
                        cases hi : a.input with
                        | none => rw [hd]
                        | some i => exact (hdat.1 d i hd hi).symm
                      · intro d hd
                        rw [hdata]
                        unfold Args.bytes
                        rw [hd]
                      · intro h1 h2
                        rw [hdata]
                        unfold Args.bytes
                        rw [h1, h2]
                      · show accessesOf (kindOf (toData up b).kind) = _
                        rw [hk1]; exact hk2
                      · intro c hc
                        have : chainOf (kindOf (toData up b).kind) = some c := hc
                        rw [hk1] at this
                        exact hk3 c this
                      · intro p hp
                        show priceOf (kindOf (toData up b).kind) = _
                        rw [hk1]
                        apply hk4
                        show f.price = some p
                        rcases hfee with ⟨p', hp', _, _, _, _, hh⟩ | ⟨t, c, _, _, _, hh, _⟩
                        · rcases hh with hh | ⟨hh, _⟩
                          · rw [hp', ← hh, hp]
                          · rw [hp] at hh; cases hh
                        · rw [hp] at hh; cases hh
                      · intro t ht
                        rcases hfee with ⟨p', _, _, _, hh, _, _⟩ | ⟨t', c, h1, h2, _, _, _, hh, _⟩
                        · rw [ht] at hh; cases hh
                        · refine ⟨c, ?_⟩
                          show capsOf (kindOf (toData up b).kind) = _
                          rw [hk1]
                          apply hk5 t c ?_ h2
                          show f.tip = some t
                          rcases hh with hh | ⟨hh, _⟩
                          · rw [h1, ← hh, ht]
                          · rw [ht] at hh; cases hh
                      · intro c hcp
                        rcases hfee with ⟨p', _, _, _, _, hh, _⟩ | ⟨t', c', h1, h2, _, _, _, _, hh⟩
                        · rw [hcp] at hh; cases hh
                        · refine ⟨t', ?_⟩
                          show capsOf (kindOf (toData up b).kind) = _
                          rw [hk1]
                          apply hk5 t' c h1
                          show f.cap = some c
                          rcases hh with hh | ⟨hh, _⟩
                          · rw [h2, ← hh, hcp]
                          · rw [hcp] at hh; cases hh
                      · intro hq
                        show (f.nonce.getD n.next) = _
                        rw [e5, hq]; rfl
                      · intro hq
                        rcases hgas with hgas | ⟨_, hgas⟩
                        · have : f.gas = some gas := hgas
                          rw [e3, hq] at this; cases this
                        · exact hgas
                      · intro hp base hbase
                        rcases hfee with ⟨p', _, _, _, _, _, hh⟩ | ⟨t, c, h1, h2, _, _, hle, ht, hcp⟩
                        · rcases hh with hh | ⟨_, hh, _⟩
                          · rw [hp] at hh; cases hh
                          · rw [hbase] at hh; cases hh
                        · refine ⟨t, c, ?_, Int.ofNat_le.2 hle, ?_, ?_⟩
                          · show capsOf (kindOf (toData up b).kind) = _
                            rw [hk1]
                            exact hk5 t c h1 h2
                          · intro e
                            rcases ht with ht | ⟨_, ht⟩
                            · rw [e] at ht; cases ht
                            · exact ⟨t, ht, rfl⟩
                          · intro e
                            rcases hcp with hcp | ⟨_, base', hb', hcp⟩
                            · rw [e] at hcp; cases hcp
                            · rw [hbase] at hb'
                              cases hb'
                              rw [hcp]
                              omega
                      · rcases hfee with ⟨p', _, _, _, h1, h2, _⟩ | ⟨t, c, _, _, _, hh, _⟩
                        · exact .inr ⟨h1, h2⟩
                        · exact .inl hh
                      · intro ht
                        rw [hdata]
                        exact hdat.2 ht
                  · cases h
            · cases hset
  · cases h

/-- **C89 (nothing sensible is refused).** Arguments that do not contradict each other are filled in by a node that
knows the base fee, suggests a tip and estimates gas: a tip as great as the cap is fine, and so are both data fields
with the same bytes. -/
theorem defaults_answer (n : Node) (a : Args) (base s : Nat) (hb : n.base = some base) (hs : n.suggest = some s)
    (hprice : a.price = none ∨ a.tip = none ∧ a.cap = none) (hcaps : ∀ t c, a.tip = some t → a.cap = some c → t ≤ c)
    (hcap : ∀ c, a.tip = none → a.cap = some c → s ≤ c)
    (hdata : ∀ d i, a.data = some d → a.input = some i → d = i)
    (hto : a.to = none → ∃ d, d ≠ [] ∧ (a.data = some d ∨ a.input = some d))
    (hgas : ∀ x, a.gas = none → (n.estimate x).isSome = true) : (setDefaults n a).isSome = true := by
  have hff : ∃ f, fillFees n a = some f := by
    unfold fillFees
    rw [hb, hs]
    cases hp : a.price with
    | some p =>
      rcases hprice with h | ⟨h1, h2⟩
      · rw [hp] at h; cases h
      · rw [h1, h2]
        exact ⟨_, rfl⟩
    | none =>
      cases ht : a.tip with
      | none =>
        cases hc : a.cap with
        | none =>
          dsimp only
          rw [if_neg (by decide), if_neg (by omega)]
          exact ⟨_, rfl⟩
        | some c =>
          have := hcap c ht hc
          dsimp only
          rw [if_neg (fun h => nomatch h), if_neg (by omega)]
          exact ⟨_, rfl⟩
      | some t =>
        cases hc : a.cap with
        | none =>
          dsimp only
          rw [if_neg (fun h => nomatch h), if_neg (by omega)]
          exact ⟨_, rfl⟩
        | some c =>
          have := hcaps t c ht hc
          dsimp only
          rw [if_neg (fun h => nomatch h), if_neg (by omega)]
          exact ⟨_, rfl⟩
  obtain ⟨f, hf⟩ := hff
  obtain ⟨_, e2, e3, _, _, e6, e7, _⟩ := fillFees_spec hf
  have hok : dataOk f = true := by
    unfold dataOk
    rw [e2, e6, e7]
    rw [Bool.and_eq_true]
    constructor
    · cases hd : a.data with
      | none => rfl
      | some d =>
        cases hi : a.input with
        | none => rfl
        | some i =>
          have := hdata d i hd hi
          subst this
          rw [decide_eq_false (fun h => h rfl), Bool.and_false]
          rfl
    · cases ht : a.to with
      | some x => rfl
      | none =>
        obtain ⟨d, hne, h⟩ := hto ht
        have hpos : 0 < d.length := List.length_pos_iff.2 hne
        rw [Bool.or_eq_true]
        refine .inr (decide_eq_true ?_)
        cases hd : a.data with
        | some d' =>
          dsimp only
          rcases h with h | h
          · rw [hd] at h; cases h; exact hpos
          · rw [hdata d' d hd h]; exact hpos
        | none =>
          rcases h with h | h
          · rw [hd] at h; cases h
          · rw [h]; exact hpos
  unfold setDefaults
  rw [hf]
  dsimp only
  rw [if_pos hok]
  have hg : ∃ g, fillGas n (fillBasics n f) = some g := by
    unfold fillGas
    have e : (fillBasics n f).gas = a.gas := e3
    rw [e]
    cases h : a.gas with
    | some g => exact ⟨_, rfl⟩
    | none =>
      dsimp only
      split
      · rename_i hn
        exact absurd hn (fun hn => by
          have hh := fun x => hgas x h
          have := hh _ ▸ congrArg Option.isSome hn
          cases this)
      · exact ⟨_, rfl⟩
  obtain ⟨g, hg⟩ := hg
  rw [hg]
  rfl

/-- A user's account, a recipient. -/
def user : List Nat := List.replicate 19 3 ++ [9]
def shop : List Nat := List.replicate 20 17

/-- A node of chain 42000 at a base fee of 1000. -/
def node : Node := ⟨42000, some 1000, some 7, 5, fun _ => some 53000⟩

/-- A payment with most fields left open. -/
def payment : Args := ⟨some user, some shop, none, none, none, none, some 12, none, none, some [1, 2], none, none⟩

/-- A signature. -/
def sigOf : List Nat → Tx → Option (Int × Int × Int) := fun _ _ => some (1, 77, 99)

example : Proper payment ∧ (∀ who tx v r s, sigOf who tx = some (v, r, s) → 0 ≤ v ∧ 0 ≤ r ∧ 0 ≤ s) ∧
    (setDefaults node payment).isSome = true ∧
    (sendTx caps toyHash node [user] sigOf false (fun _ => true) payment).map (fun o => asTx o.msg.data) =
      some ⟨.dynamic 42000 7 2007 [], 5, 53000, some shop, 12, [1, 2], 1, 77, 99⟩ := by
  refine ⟨⟨fun x h => by cases h; decide, (fun l h => nomatch h)⟩, fun who tx v r s h => by cases h; decide,
    defaults_answer node payment 1000 7 rfl rfl (.inl rfl) (fun t c h => nomatch h) (fun c _ h => nomatch h)
      (fun d i h => nomatch h) (fun h => nomatch h) (fun _ _ => rfl), by decide +kernel⟩

/-- **C89 (no limit on fees).** Whatever limit on fees a node is given, transactions of a greater fee go out: the
limit is only looked at when a transaction is to be sent again. -/
theorem fee_not_limited (limit : Nat) (hl : limit < 2 ^ 200) (H : Tx → List Nat) (up : List Nat → Nat → Bool) :
    ∃ tx price, Decoded tx ∧ tx.kind = .legacy price ∧ (limit : Int) < price * (tx.gas : Int) ∧
      (sendRaw up H false (fun _ => true) tx).isSome = true := by
  have hd : Decoded ⟨.legacy ((limit + 1 : Nat) : Int), 0, 21000, some shop, 0, [], 84035, 1, 1⟩ :=
    ⟨Int.natCast_nonneg _, fun x h => by cases h; decide, Int.le_refl 0, (by decide : (0 : Int) ≤ 84035),
      (by decide : (0 : Int) ≤ 1), (by decide : (0 : Int) ≤ 1)⟩
  refine ⟨_, _, hd, rfl, ?_, ?_⟩
  · dsimp only
    omega
  · refine (raw_sent up H false (fun _ => true) _ hd).2.2 ⟨.inr rfl, ⟨(by decide : (0 : Int) < 2 ^ 256), ?_⟩, trivial, ?_⟩
    · dsimp only
      have : ((2 : Nat) ^ 200 : Nat) < 2 ^ 256 := by decide
      omega
    · refine ⟨(by decide : 1 ≤ 21000), (by decide : 21000 < 2 ^ 63), ?_⟩
      dsimp only
      have h2 : ((2 : Nat) ^ 200 : Nat) * 21000 < 2 ^ 256 := by decide
      refine ⟨?_, .inr (.inr (by decide))⟩
      omega

/-! ## The next nonce -/

/-- **C89 (next nonce).** With at most thirty transactions pending, each either of Ethereum throughout or not of
the account, and the account's pending nonces following its sequence number one after the other, the nonce the
node gives is the first free one. -/
theorem next_nonce_partial (who q m : Nat) (pool : List (List PMsg)) (hlen : pool.length ≤ 30)
    (hplain : ∀ t ∈ pool, Plain who t) (hseq : (usedNonces who pool).Perm (List.range' q m)) :
    NextFree q (usedNonces who pool) (pendingNonce who (some q) pool) := by
  unfold pendingNonce
  dsimp only
  rw [List.take_of_length_le (show pool.length ≤ perPage from hlen), count_used who pool hplain, hseq.length_eq, List.length_range']
  refine ⟨by omega, ?_, fun k h1 h2 => ?_⟩
  · rw [hseq.mem_iff, List.mem_range'_1]
    omega
  · rw [hseq.mem_iff, List.mem_range'_1]
    omega

example : (∀ t ∈ [[PMsg.eth (some 4) 6], [.other 3 9], [.eth (some 4) 5, .eth (some 8) 0]], Plain 4 t) ∧
    usedNonces 4 [[PMsg.eth (some 4) 6], [.other 3 9], [.eth (some 4) 5, .eth (some 8) 0]] = [6, 5] ∧
    pendingNonce 4 (some 5) [[PMsg.eth (some 4) 6], [.other 3 9], [.eth (some 4) 5, .eth (some 8) 0]] = 7 := by
  refine ⟨fun t ht => ?_, by decide, by decide⟩
  simp only [List.mem_cons, List.not_mem_nil, or_false] at ht
  rcases ht with rfl | rfl | rfl
  · exact .inl fun m hm => by rw [List.mem_singleton] at hm; exact ⟨_, _, hm⟩
  · exact .inr fun m hm => by rw [List.mem_singleton] at hm; exact ⟨_, _, hm, by decide⟩
  · refine .inl fun m hm => ?_
    simp only [List.mem_cons, List.not_mem_nil, or_false] at hm
    rcases hm with hm | hm
    · exact ⟨_, _, hm⟩
    · exact ⟨_, _, hm⟩

/-- An account without a record counts from zero. -/
theorem next_nonce_new (who : Nat) (pool : List (List PMsg)) : pendingNonce who none pool = 0 := rfl

/-- A pool of one account's payments, one nonce after the other. -/
def queue (who q m : Nat) : List (List PMsg) := (List.range' q m).map fun k => [.eth (some who) k]

theorem queue_used (who q m : Nat) : usedNonces who (queue who q m) = List.range' q m := by
  unfold usedNonces queue
  rw [List.flatMap_map]
  have : ∀ k : Nat, List.filterMap (nonceOf who) [PMsg.eth (some who) k] = [k] := by
    intro k
    rw [List.filterMap_cons]
    unfold nonceOf
    dsimp only
    rw [if_pos rfl]
    rfl
  induction m generalizing q with
  | zero => rfl
  | succ m ih =>
    rw [List.range'_succ, List.flatMap_cons, this, ih]
    rfl

/-- **C89 (more than thirty).** With more than thirty payments of an account pending, the node gives a nonce that
is taken. -/
theorem next_nonce_taken (who q m : Nat) (hm : 30 < m) :
    pendingNonce who (some q) (queue who q m) ∈ usedNonces who (queue who q m) := by
  rw [queue_used]
  unfold pendingNonce
  dsimp only
  have ht : (queue who q m).take perPage = queue who q 30 := by
    unfold queue perPage
    have e : List.range' q m = List.range' q 30 ++ List.range' (q + 30) (m - 30) := by
      have := List.range'_append_1 (s := q) (m := 30) (n := m - 30)
      rw [this]
      congr 1
      omega
    rw [e, List.map_append, List.take_append_of_le_length (by rw [List.length_map, List.length_range']; omega),
      List.take_of_length_le (by rw [List.length_map, List.length_range']; omega)]
  rw [ht, count_used who _ ?_, queue_used, List.length_range', List.mem_range'_1]
  · omega
  · intro t ht
    unfold queue at ht
    rw [List.mem_map] at ht
    obtain ⟨k, _, rfl⟩ := ht
    exact .inl fun m hm => by rw [List.mem_singleton] at hm; exact ⟨_, _, hm⟩

/-- **C89 (other transactions).** The same for one pending transaction of the account that is not of Ethereum. -/
theorem next_nonce_other : pendingNonce 4 (some 5) [[.other 4 5]] ∈ usedNonces 4 [[.other 4 5]] := by decide

/-- **C89 (gaps).** And a nonce can be taken though there is a gap before it. -/
theorem next_nonce_gap : ¬ NextFree 5 (usedNonces 4 [[.eth (some 4) 6]]) (pendingNonce 4 (some 5) [[.eth (some 4) 6]]) := by
  intro h
  exact h.2.1 (by decide)

/-! ## Sending again -/

/-- **C89 (sending again fails).** No pending transaction is ever found to be sent again, as the node looks for
one whose hash is zero. -/
theorem resend_finds_nothing (same : List (Option (List Nat)) → Bool) (pool : List (List (Option (List Nat))))
    (h : ∀ t ∈ pool, some (List.replicate 32 0) ∉ t) : resendFinds same pool = false := by
  have hz : ∀ t : List (Option (List Nat)), some (List.replicate 32 0) ∉ t → unwrapZero t = false := by
    intro t
    induction t with
    | nil => intro _; rfl
    | cons x t ih =>
      intro hx
      cases x with
      | none => rfl
      | some y =>
        unfold unwrapZero
        rw [ih (fun h' => hx (.tail _ h')), Bool.or_false, decide_eq_false_iff_not]
        intro e
        exact hx (by rw [e]; exact List.mem_cons_self)
  unfold resendFinds
  rw [List.any_eq_false]
  intro t ht
  rw [hz t (h t ht)]
  exact fun h => nomatch h

example : ∀ t ∈ [[some (List.replicate 31 0 ++ [7])], [none]], some (List.replicate 32 0) ∉ t := by decide

end Send
