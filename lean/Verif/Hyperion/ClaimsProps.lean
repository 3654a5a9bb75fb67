import Verif.Hyperion.ClaimsLemmas
/-!
# Which parts of a claim its hash fixes

Validators vote for a claim by its hash; the first claim received with that hash is the one that is applied.  So two claims
with the same hashed string should have the same effect.
-/
namespace Hyperion

/-! ## The theorems -/

/-- Deposit claims with the same hashed string agree on everything that determines the deposit: nonce, height, token,
amount, sender, receiver and data. -/
theorem deposit_hash_covers {hid1 hid2 n1 n2 b1 b2 : Nat} {t1 t2 : Str} {a1 a2 : Int} {s1 s2 r1 r2 d1 d2 x1 x2 : Str} {o1 o2 : Nat}
    (v1 : (Claim.deposit hid1 n1 b1 t1 a1 s1 r1 d1 x1 o1).basic = true)
    (v2 : (Claim.deposit hid2 n2 b2 t2 a2 s2 r2 d2 x2 o2).basic = true)
    (h : claimPath (.deposit hid1 n1 b1 t1 a1 s1 r1 d1 x1 o1) = claimPath (.deposit hid2 n2 b2 t2 a2 s2 r2 d2 x2 o2)) :
    n1 = n2 ∧ b1 = b2 ∧ t1 = t2 ∧ a1 = a2 ∧ s1 = s2 ∧ r1 = r2 ∧ d1 = d2 := by
  simp only [Claim.basic, Bool.and_eq_true] at v1 v2
  obtain ⟨⟨⟨vr1, vs1⟩, vt1⟩, _⟩ := v1
  obtain ⟨⟨⟨vr2, vs2⟩, vt2⟩, _⟩ := v2
  obtain ⟨e1, h⟩ := split_slash (dec_noSlash _) (dec_noSlash _) h
  obtain ⟨e2, h⟩ := split_slash (dec_noSlash _) (dec_noSlash _) h
  obtain ⟨e3, h⟩ := split_slash (eth_noSlash vt1) (eth_noSlash vt2) h
  obtain ⟨e4, h⟩ := split_slash (decInt_noSlash _) (decInt_noSlash _) h
  obtain ⟨e5, h⟩ := split_slash (eth_noSlash vs1) (eth_noSlash vs2) h
  obtain ⟨e6, h⟩ := split_slash (bech32_noSlash vr1) (bech32_noSlash vr2) h
  exact ⟨dec_inj e1, dec_inj e2, e3, decInt_inj e4, e5, e6, h⟩

/-- A 40-digit address made of the digit `c`. -/
def addrOf (c : UInt8) : Str := 0x30 :: 0x78 :: List.replicate 40 c

example : (Claim.deposit 1 7 100 (addrOf 0x61) 25 (addrOf 0x62) [0x68, 0x31] [] [] 3).basic = true := by decide +kernel

/-- Claims about an executed batch with the same hashed string agree on nonce, batch and token; the height of the
counterparty chain is not part of the string. -/
theorem withdraw_hash_covers_partial {hid1 hid2 n1 n2 b1 b2 k1 k2 : Nat} {t1 t2 x1 x2 : Str} {o1 o2 : Nat}
    (v1 : (Claim.withdraw hid1 n1 b1 k1 t1 x1 o1).basic = true) (v2 : (Claim.withdraw hid2 n2 b2 k2 t2 x2 o2).basic = true)
    (h : claimPath (.withdraw hid1 n1 b1 k1 t1 x1 o1) = claimPath (.withdraw hid2 n2 b2 k2 t2 x2 o2)) :
    n1 = n2 ∧ k1 = k2 ∧ t1 = t2 := by
  simp only [Claim.basic, Bool.and_eq_true] at v1 v2
  obtain ⟨e1, h⟩ := split_slash (eth_noSlash v1.2) (eth_noSlash v2.2) h
  obtain ⟨e2, h⟩ := split_slash (dec_noSlash _) (dec_noSlash _) h
  obtain ⟨e3, h⟩ := split_slash (dec_noSlash _) (dec_noSlash _) h
  exact ⟨dec_inj e3, dec_inj e2, e1⟩

/-- Two valid claims about the same batch with different heights of the counterparty chain have the same hashed string:
whoever reports first chooses the height that is recorded. -/
theorem withdraw_height_not_hashed :
    (Claim.withdraw 1 7 100 3 (addrOf 0x61) [] 5).basic = true ∧ (Claim.withdraw 1 7 99999 3 (addrOf 0x61) [] 6).basic = true ∧
    claimPath (.withdraw 1 7 100 3 (addrOf 0x61) [] 5) = claimPath (.withdraw 1 7 99999 3 (addrOf 0x61) [] 6) ∧
    (Claim.withdraw 1 7 100 3 (addrOf 0x61) [] 5).height ≠ (Claim.withdraw 1 7 99999 3 (addrOf 0x61) [] 6).height := by
  decide +kernel

/-- Claims about a deployed token with the same hashed string agree on nonce, height, denomination, contract, name, symbol
and decimals, if no separator occurs in denomination, name and symbol. -/
theorem deployed_hash_covers_partial {hid1 hid2 n1 n2 b1 b2 : Nat} {d1 d2 t1 t2 m1 m2 y1 y2 : Str} {c1 c2 o1 o2 : Nat}
    (v1 : (Claim.deployed hid1 n1 b1 d1 t1 m1 y1 c1 o1).basic = true) (v2 : (Claim.deployed hid2 n2 b2 d2 t2 m2 y2 c2 o2).basic = true)
    (w1 : noSlash d1 ∧ noSlash m1 ∧ noSlash y1) (w2 : noSlash d2 ∧ noSlash m2 ∧ noSlash y2)
    (h : claimPath (.deployed hid1 n1 b1 d1 t1 m1 y1 c1 o1) = claimPath (.deployed hid2 n2 b2 d2 t2 m2 y2 c2 o2)) :
    n1 = n2 ∧ b1 = b2 ∧ d1 = d2 ∧ t1 = t2 ∧ m1 = m2 ∧ y1 = y2 ∧ c1 = c2 := by
  simp only [Claim.basic, Bool.and_eq_true] at v1 v2
  obtain ⟨e1, h⟩ := split_slash (dec_noSlash _) (dec_noSlash _) h
  obtain ⟨e2, h⟩ := split_slash (dec_noSlash _) (dec_noSlash _) h
  obtain ⟨e3, h⟩ := split_slash w1.1 w2.1 h
  obtain ⟨e4, h⟩ := split_slash (eth_noSlash v1.1) (eth_noSlash v2.1) h
  obtain ⟨e5, h⟩ := split_slash w1.2.1 w2.2.1 h
  obtain ⟨e6, h⟩ := split_slash w1.2.2 w2.2.2 h
  exact ⟨dec_inj e1, dec_inj e2, e3, e4, e5, e6, dec_inj h⟩

/-- Name `A/B` with symbol `C` and name `A` with symbol `B/C` give the same hashed string. -/
theorem deployed_fields_run_together :
    (Claim.deployed 1 7 100 [0x64] (addrOf 0x61) [0x41, 0x2f, 0x42] [0x43] 18 5).basic = true ∧
    (Claim.deployed 1 7 100 [0x64] (addrOf 0x61) [0x41] [0x42, 0x2f, 0x43] 18 5).basic = true ∧
    claimPath (.deployed 1 7 100 [0x64] (addrOf 0x61) [0x41, 0x2f, 0x42] [0x43] 18 5) =
      claimPath (.deployed 1 7 100 [0x64] (addrOf 0x61) [0x41] [0x42, 0x2f, 0x43] 18 5) := by
  decide +kernel

/-- An address may be given without `0x`, so an amount of 40 digits reads like an address: a deposit and a deployment with
the same hashed string. -/
theorem deposit_and_deployment_collide :
    let t := addrOf 0x61
    let amount : Int := 1111111111111111111111111111111111111111
    let c1 := Claim.deposit 1 7 100 t amount (addrOf 0x62) [0x68, 0x31] [0x31, 0x38] [] 5
    let c2 := Claim.deployed 1 7 100 t (List.replicate 40 0x31) (addrOf 0x62) [0x68, 0x31] 18 5
    c1.basic = true ∧ c2.basic = true ∧ claimPath c1 = claimPath c2 := by
  decide +kernel

/-- Claims about a new validator set with the same hashed string agree on both nonces, the height and the members; the
reward is not part of the string. -/
theorem valset_hash_covers_partial {hid1 hid2 n1 n2 k1 k2 b1 b2 : Nat} {m1 m2 : List Member} {r1 r2 : Int} {t1 t2 : Str} {o1 o2 : Nat}
    (v1 : (Claim.valset hid1 n1 k1 b1 m1 r1 t1 o1).basic = true) (v2 : (Claim.valset hid2 n2 k2 b2 m2 r2 t2 o2).basic = true)
    (h : claimPath (.valset hid1 n1 k1 b1 m1 r1 t1 o1) = claimPath (.valset hid2 n2 k2 b2 m2 r2 t2 o2)) :
    n1 = n2 ∧ k1 = k2 ∧ b1 = b2 ∧ m1 = m2 := by
  simp only [Claim.basic, Bool.and_eq_true] at v1 v2
  obtain ⟨e1, h⟩ := split_slash (dec_noSlash _) (dec_noSlash _) h
  obtain ⟨e2, h⟩ := split_slash (dec_noSlash _) (dec_noSlash _) h
  obtain ⟨e3, h⟩ := split_slash (dec_noSlash _) (dec_noSlash _) h
  have h := split_last h
  refine ⟨dec_inj e2, dec_inj e1, dec_inj e3, ?_⟩
  have h := (List.cons.inj h).2
  exact members_inj (x := []) (y := []) v1.2 v2.2 h

/-- Two valid claims about the same validator set with different rewards have the same hashed string. -/
theorem valset_reward_not_hashed :
    let c1 := Claim.valset 1 7 3 100 [⟨5, addrOf 0x61⟩, ⟨0, addrOf 0x62⟩] 0 (addrOf 0x30) 5
    let c2 := Claim.valset 1 7 3 100 [⟨5, addrOf 0x61⟩, ⟨0, addrOf 0x62⟩] 1000 (addrOf 0x63) 6
    c1.basic = true ∧ c2.basic = true ∧ claimPath c1 = claimPath c2 := by
  decide +kernel

/-- Claims with the same hashed string are of the same kind, unless one is a deposit and the other a deployment. -/
theorem claim_kinds_apart_partial {c1 c2 : Claim} (v1 : c1.basic = true) (v2 : c2.basic = true)
    (h : claimPath c1 = claimPath c2) :
    c1.kind = c2.kind ∨ (c1.kind = 0 ∧ c2.kind = 2) ∨ (c1.kind = 2 ∧ c2.kind = 0) := by
  have a := slashes_kind v1
  have b := slashes_kind v2
  rw [h] at a
  have k1 : c1.kind = 0 ∨ c1.kind = 1 ∨ c1.kind = 2 ∨ c1.kind = 3 := by cases c1 <;> simp [Claim.kind]
  have k2 : c2.kind = 0 ∨ c2.kind = 1 ∨ c2.kind = 2 ∨ c2.kind = 3 := by cases c2 <;> simp [Claim.kind]
  omega

example : (Claim.valset 1 7 3 100 [⟨5, addrOf 0x61⟩, ⟨0, addrOf 0x62⟩] 0 (addrOf 0x30) 5).basic = true ∧
    (Claim.withdraw 1 7 100 3 (addrOf 0x61) [] 5).basic = true ∧
    (Claim.deployed 1 7 100 [0x64] (addrOf 0x61) [0x41] [0x43] 18 5).basic = true := by decide +kernel

end Hyperion
