import Verif.Hyperion.PoolLemmas4
/-!
# Deposits, data requests, and the invariant over histories
-/
namespace Hyperion
open StableSort

variable {sent : List Tx} {base : Denom → Nat} {s s' : State}

theorem Inv.congr_base {base' : Denom → Nat} (i : Inv sent base s) (h : ∀ d, base d = base' d) : Inv sent base' s := by
  have : base = base' := funext h
  rw [← this]
  exact i

theorem burnt_congr {a b : State} (h1 : a.pool = b.pool) (h2 : a.finalized = b.finalized) (h3 : a.lost = b.lost) :
    burnt a = burnt b := by
  unfold burnt endedAs
  rw [h1, h2, h3]

/-- Changing the bank, with more coins in supply and no ahelios leaving the module. -/
theorem Inv.setBank (i : Inv sent base s) {bk : Bank} {links' : List Link} {extra : Denom → Nat}
    (hs : ∀ d, bk.supply d = s.bank.supply d + extra d) (hm : s.bank.bal .module ahelios ≤ bk.bal .module ahelios)
    (hext : LinksExt s.links links') (hok : LinksOk links') :
    Inv sent (fun d => base d + extra d) { s with bank := bk, links := links' } where
  core := i.core
  acc := i.acc
  ids := i.ids
  nle := i.nle
  dd := i.dd
  dkey := i.dkey
  dnle := i.dnle
  lk := hok
  linked := i.linked.ext hext
  ledger := by
    intro d
    have := i.ledger d
    show bk.supply d + amountIn links' d (burnt s) = _
    rw [hs, amountIn_ext hext d (fun t ht => i.linked t (i.burnt_sent ht))]
    omega
  escrow := Nat.le_trans i.escrow hm

theorem createLink_inv (i : Inv sent base s) {hid addr : Nat} (d : Denom) (o : Bool)
    (h : linkByAddr s.links hid addr = none) :
    Inv sent (fun e => base e + if e = d then 1 else 0) (createLink s hid addr d o) := by
  unfold createLink
  refine i.setBank (extra := fun e => if e = d then 1 else 0) (fun e => Bank.mint_supply _ _ _ _) ?_ ?_ ?_
  · rw [Bank.mint_bal]
    exact Nat.le_add_right _ _
  · split
    · exact LinksExt.refl _
    · exact append_ext _ _
  · split
    · exact i.lk
    · exact append_ok i.lk h

theorem deposit_core (i : Inv sent base s) {d : Denom} {amount : Nat} {dst : Acct} {links' : List Link} {b2 : Bank}
    (hext : LinksExt s.links links') (hok : LinksOk links') (hb : (s.bank.mint d amount).send .module dst d amount = some b2) :
    Inv sent (fun e => base e + if e = d then amount else 0) { s with bank := b2, links := links' } := by
  obtain ⟨h1, h2, h3⟩ := Bank.send_some hb
  refine i.setBank (extra := fun e => if e = d then amount else 0) ?_ ?_ hext hok
  · intro e
    rw [h2, Bank.mint_supply]
  · rw [h3, Bank.mint_bal]
    simp only [true_and]
    split <;> split <;> omega

theorem deposit_inv {cfg : Cfg} (i : Inv sent base s) {hid addr amount : Nat} {receiver : Option Nat} {evs : List Ev}
    (h : deposit cfg s hid addr amount receiver = some (s', evs)) :
    Inv sent (fun d => base d + issuedIn d evs) s' ∧ sentIn evs = [] := by
  unfold deposit at h
  cases hl : linkByAddr s.links hid addr with
  | some l =>
    rw [hl] at h
    dsimp only at h
    have key : ∀ links' b2 dst, LinksExt s.links links' → LinksOk links' →
        (s.bank.mint l.denom amount).send .module dst l.denom amount = some b2 →
        Inv sent (fun d => base d + issuedIn d [.deposited l.denom amount]) { s with bank := b2, links := links' } := by
      intro links' b2 dst h1 h2 h3
      refine (deposit_core i h1 h2 h3).congr_base ?_
      intro d
      simp only [issuedIn, Nat.add_zero]
      rw [ite_eq_symm]
    split at h
    · cases h
    · rename_i links' hck
      have hlk : LinksExt s.links links' ∧ LinksOk links' := by
        split at hck
        · split at hck
          · cases hck
          · cases hck
            exact ⟨setLocked_ext _ _ _ _, setLocked_ok i.lk _ _ _⟩
        · split at hck
          · cases hck
            exact ⟨LinksExt.refl _, i.lk⟩
          · cases hck
      split at h
      · cases h
      · rename_i b2 hb2
        cases h
        exact ⟨key _ _ _ hlk.1 hlk.2 hb2, rfl⟩
  | none =>
    rw [hl] at h
    dsimp only at h
    have i1 := createLink_inv i (.bridged hid addr) true hl
    generalize hs1 : createLink s hid addr (.bridged hid addr) true = s1 at h i1
    simp only [Bool.false_eq_true, if_false] at h
    split at h
    · cases h
    · rename_i links' hck
      split at hck
      · cases hck
        split at h
        · cases h
        · rename_i b2 hb2
          cases h
          refine ⟨(deposit_core i1 (LinksExt.refl _) i1.lk hb2).congr_base ?_, rfl⟩
          intro d
          simp only [List.cons_append, List.nil_append, issuedIn, Nat.add_zero]
          rw [ite_eq_symm d, ite_eq_symm d]
          omega
      · cases hck

/-! ## Data requests -/

theorem tryPay_spec (cfg : Cfg) (b : Bank) (to n : Nat) :
    (tryPay cfg b to n).supply = b.supply ∧ b.bal .module ahelios ≤ (tryPay cfg b to n).bal .module ahelios + n := by
  unfold tryPay
  split
  · exact ⟨rfl, Nat.le_add_right _ _⟩
  · cases h : b.send .module (.user to) ahelios n with
    | none => exact ⟨rfl, Nat.le_add_right _ _⟩
    | some b' =>
      obtain ⟨h1, h2, h3⟩ := Bank.send_some h
      refine ⟨h2, ?_⟩
      simp only [Option.getD_some]
      rw [h3]
      simp only [and_self, if_true, reduceCtorEq, false_and, if_false, Nat.add_zero]
      omega

theorem foldl_tryPay (cfg : Cfg) (n : Nat) (votes : List Nat) : ∀ b : Bank,
    (votes.foldl (fun b v => tryPay cfg b v n) b).supply = b.supply ∧
    b.bal .module ahelios ≤ (votes.foldl (fun b v => tryPay cfg b v n) b).bal .module ahelios + votes.length * n := by
  induction votes with
  | nil => exact fun b => ⟨rfl, Nat.le_add_right _ _⟩
  | cons v votes ih =>
    intro b
    obtain ⟨h1, h2⟩ := tryPay_spec cfg b v n
    obtain ⟨h3, h4⟩ := ih (tryPay cfg b v n)
    simp only [List.foldl_cons, List.length_cons, Nat.add_mul, Nat.one_mul]
    exact ⟨h3.trans h1, by omega⟩

theorem sum_sublist_le {l1 l2 : List Nat} (h : l1.Sublist l2) : l1.sum ≤ l2.sum := by
  induction h with
  | slnil => exact Nat.le_refl _
  | cons a _ ih =>
    rw [List.sum_cons]
    omega
  | cons_cons a _ ih =>
    rw [List.sum_cons, List.sum_cons]
    omega

theorem Inv.setData (i : Inv sent base s) {bk : Bank} {data' : List ((Nat × Nat × Nat) × DataTx)}
    (hs : bk.supply = s.bank.supply) (hsub : data'.Sublist s.data)
    (hm : feesOf (s.pool.map (·.2)) + (data'.map (fun e => e.2.fee)).sum ≤ bk.bal .module ahelios) :
    Inv sent base { s with bank := bk, data := data' } where
  core := i.core
  acc := i.acc
  ids := i.ids
  nle := i.nle
  dd := List.Nodup.sublist (hsub.map _) i.dd
  dkey := fun e he => i.dkey e (hsub.subset he)
  dnle := fun e he => i.dnle e (hsub.subset he)
  lk := i.lk
  linked := i.linked
  ledger := by
    intro d
    have := i.ledger d
    show bk.supply d + amountIn s.links d (burnt s) = _
    rw [hs]
    exact this
  escrow := hm

theorem dataExecute_inv (cfg : Cfg) (i : Inv sent base s) (hid nonce contract : Nat) (votes : List Nat) :
    Inv sent base (dataExecute cfg s hid nonce contract votes) := by
  unfold dataExecute
  cases hg : KV.get s.data (hid, nonce, contract) with
  | none => exact i
  | some t =>
    simp only
    obtain ⟨h1, h2⟩ := foldl_tryPay cfg (t.fee / votes.length) votes s.bank
    have hsub : (KV.del (s.data.filter (fun e => !(decide (e.2.hid = hid ∧ e.2.nonce < nonce ∧ e.2.contract = contract))))
        (hid, nonce, contract)).Sublist (KV.del s.data (hid, nonce, contract)) := by
      unfold KV.del
      exact List.filter_sublist.filter _
    refine i.setData h1 (hsub.trans List.filter_sublist) ?_
    have hp := (KV.perm_of_get i.dd hg).map (fun e => e.2.fee)
    have h3 := hp.sum_nat
    simp only [List.map_cons, List.sum_cons] at h3
    have h4 := sum_sublist_le (hsub.map (fun e => e.2.fee))
    have h5 : votes.length * (t.fee / votes.length) ≤ t.fee := Nat.mul_div_le _ _
    have h6 := i.escrow
    unfold dataFees at h6
    omega

theorem dataTimeout_inv (cfg : Cfg) (i : Inv sent base s) (hid nonce contract : Nat) :
    Inv sent base (dataTimeout cfg s hid nonce contract) := by
  unfold dataTimeout
  cases hg : KV.get s.data (hid, nonce, contract) with
  | none => exact i
  | some t =>
    simp only
    obtain ⟨h1, h2⟩ := tryPay_spec cfg s.bank t.sender t.fee
    refine i.setData h1 List.filter_sublist ?_
    have hp := (KV.perm_of_get i.dd hg).map (fun e => e.2.fee)
    have h3 := hp.sum_nat
    simp only [List.map_cons, List.sum_cons] at h3
    have h6 := i.escrow
    unfold dataFees at h6
    omega

theorem dataRequest_inv (i : Inv sent base s) {origin hid contract fee : Nat}
    (h : dataRequest s origin hid contract fee = some s') : Inv sent base s' := by
  unfold dataRequest at h
  split at h
  · cases h
  · rename_i b hb
    cases h
    obtain ⟨h1, h2, h3⟩ := Bank.send_some hb
    have hmono : ∀ x, s.lastBatch x ≤ (if x = hid then s.lastBatch hid + 1 else s.lastBatch x) := by
      intro x
      split
      · rename_i hx
        rw [hx]
        omega
      · exact Nat.le_refl _
    have hn : KV.get s.data (hid, s.lastBatch hid + 1, contract) = none := by
      rw [KV.get_eq_none]
      intro e he heq
      have k1 := i.dkey e he
      have k2 := i.dnle e he
      rw [heq] at k1
      simp only [Prod.mk.injEq] at k1
      rw [← k1.1, ← k1.2.1] at k2
      omega
    refine
      { core := i.core
        acc := i.acc
        ids := i.ids
        nle := fun e he => Nat.le_trans (i.nle e he) (hmono _)
        dd := KV.distinct_set i.dd _ _
        dkey := ?_
        dnle := ?_
        lk := i.lk
        linked := i.linked
        ledger := ?_
        escrow := ?_ }
    · intro e he
      rcases KV.mem_set.1 he with rfl | ⟨he, _⟩
      · rfl
      · exact i.dkey e he
    · intro e he
      rcases KV.mem_set.1 he with rfl | ⟨he, _⟩
      · simp
      · exact Nat.le_trans (i.dnle e he) (hmono _)
    · intro d
      have := i.ledger d
      show b.supply d + amountIn s.links d (burnt s) = _
      rw [h2]
      exact this
    · have := i.escrow
      show feesOf (s.pool.map (·.2)) + dataFees _ ≤ b.bal .module ahelios
      unfold dataFees at *
      simp only [KV.set]
      rw [KV.del_of_get_none hn]
      simp only [List.map_cons, List.sum_cons]
      rw [h3]
      simp only [and_self, if_true, reduceCtorEq, false_and, if_false, Nat.sub_zero]
      omega

/-! ## One operation, all histories -/

theorem Inv.same (i : Inv sent base s) : Inv (sent ++ sentIn (Out.evs .err)) (fun d => base d + issuedIn d (Out.evs .err)) s := by
  simpa [Out.evs, sentIn, issuedIn] using i

theorem Inv.quiet (i : Inv sent base s) {evs : List Ev} (h1 : sentIn evs = []) (h2 : ∀ d, issuedIn d evs = 0) :
    Inv (sent ++ sentIn (Out.evs (.ok evs))) (fun d => base d + issuedIn d (Out.evs (.ok evs))) s := by
  simp only [Out.evs]
  rw [h1, List.append_nil]
  refine i.congr_base ?_
  intro d
  rw [h2, Nat.add_zero]

theorem step_inv (cfg : Cfg) (i : Inv sent base s) (o : Op) :
    Inv (sent ++ sentIn (step cfg s o).2.evs) (fun d => base d + issuedIn d (step cfg s o).2.evs) (step cfg s o).1 := by
  cases o with
  | send sender hid dest d amount feeDenom fee timeout =>
    simp only [step]
    cases h : addToPool s sender hid dest d amount feeDenom fee timeout with
    | none => exact i.same
    | some r =>
      obtain ⟨s', tx⟩ := r
      exact (addToPool_inv i h).1
  | cancelSend sender hid id =>
    simp only [step]
    obtain ⟨s', ok, h1, h2, _⟩ := refund_inv cfg i hid id sender
    rw [h1]
    cases ok
    · exact i.same
    · exact h2.quiet rfl (fun _ => rfl)
  | requestBatch hid d timeout =>
    simp only [step]
    cases hl : linkByDenom s.links hid d with
    | none => exact i.same
    | some l =>
      simp only
      cases h : buildBatch cfg s hid l.addr timeout with
      | none => exact i.same
      | some r => exact (buildBatch_inv (s' := r.1) (b := r.2) i h).quiet rfl (fun _ => rfl)
  | requestBatchIds hid d timeout ids =>
    simp only [step]
    cases hl : linkByDenom s.links hid d with
    | none => exact i.same
    | some l =>
      simp only
      cases h : buildBatchIds cfg s hid l.addr timeout ids with
      | none => exact i.same
      | some r => exact (buildBatchIds_inv (s' := r.1) (b := r.2) i h).quiet rfl (fun _ => rfl)
  | deposit hid addr amount receiver =>
    simp only [step]
    cases h : deposit cfg s hid addr amount receiver with
    | none => exact i.same
    | some r =>
      obtain ⟨s', evs⟩ := r
      obtain ⟨h1, h2⟩ := deposit_inv i h
      simp only [Out.evs]
      rw [h2, List.append_nil]
      exact h1
  | executed hid token nonce orch =>
    simp only [step]
    by_cases hb : cfg.blocked orch = false
    · obtain ⟨s', h1, h2⟩ := batchExecuted_inv i hid token nonce hb
      rw [h1]
      exact h2.quiet rfl (fun _ => rfl)
    · cases h : batchExecuted cfg s hid token nonce orch with
      | none => exact i.same
      | some s' =>
        have : s' = s := by
          unfold batchExecuted at h
          split at h
          · exact (Option.some.inj h).symm
          · dsimp only at h
            split at h
            · cases h
            · rw [if_pos (by simpa using hb)] at h
              cases h
        rw [this]
        exact i.quiet rfl (fun _ => rfl)
  | timeouts hid projected paused =>
    simp only [step]
    obtain ⟨s', h1, h2, _⟩ := timeouts_inv cfg i hid projected paused
    rw [h1]
    exact h2.quiet rfl (fun _ => rfl)
  | cleanAll hid =>
    simp only [step]
    obtain ⟨s', h1, h2, _⟩ := cleanAll_inv cfg i hid
    rw [h1]
    exact h2.quiet rfl (fun _ => rfl)
  | link hid addr d =>
    simp only [step]
    split
    · exact i.same
    · rename_i hc
      simp only [Bool.or_eq_true, not_or, Bool.not_eq_true, Option.isSome_eq_false_iff, Option.isNone_iff_eq_none] at hc
      simp only [Out.evs]
      have := createLink_inv i d false hc.1
      simp only [sentIn, List.filterMap_cons, List.filterMap_nil, List.append_nil]
      refine this.congr_base ?_
      intro e
      simp only [issuedIn, Nat.add_zero]
      rw [ite_eq_symm]
  | transfer src dst d n =>
    simp only [step]
    cases h : s.bank.send (.user src) (.user dst) d n with
    | none => exact i.same
    | some b =>
      obtain ⟨h1, h2, h3⟩ := Bank.send_some h
      have := i.setBank (bk := b) (links' := s.links) (extra := fun _ => 0) (fun e => by rw [h2]; rfl)
        (by rw [h3]; simp) (LinksExt.refl _) i.lk
      exact this.quiet rfl (fun _ => rfl)
  | dataRequest origin hid contract fee =>
    simp only [step]
    cases h : dataRequest s origin hid contract fee with
    | none => exact i.same
    | some s' => exact (dataRequest_inv i h).quiet rfl (fun _ => rfl)
  | dataExecute hid nonce contract votes => exact (dataExecute_inv cfg i hid nonce contract votes).quiet rfl (fun _ => rfl)
  | dataTimeout hid nonce contract => exact (dataTimeout_inv cfg i hid nonce contract).quiet rfl (fun _ => rfl)

theorem issuedIn_append (d : Denom) (a b : List Ev) : issuedIn d (a ++ b) = issuedIn d a + issuedIn d b := by
  induction a with
  | nil => simp [issuedIn]
  | cons e a ih => cases e <;> simp only [List.cons_append, issuedIn, ih] <;> omega

theorem events_cons (o : Out) (outs : List Out) : events (o :: outs) = o.evs ++ events outs := by simp [events]

theorem sentIn_append (a b : List Ev) : sentIn (a ++ b) = sentIn a ++ sentIn b := by simp [sentIn]

theorem run_inv (cfg : Cfg) (ops : List Op) : ∀ {sent : List Tx} {base : Denom → Nat} {s : State}, Inv sent base s →
    Inv (sent ++ sentIn (events (run cfg s ops).2)) (fun d => base d + issuedIn d (events (run cfg s ops).2))
      (run cfg s ops).1 := by
  induction ops with
  | nil => intro sent base s i; simpa [run, events, sentIn, issuedIn] using i
  | cons o os ih =>
    intro sent base s i
    have h1 := step_inv cfg i o
    have h2 := ih h1
    simp only [run]
    rw [events_cons, sentIn_append, ← List.append_assoc]
    refine h2.congr_base ?_
    intro d
    rw [issuedIn_append]
    omega

end Hyperion
