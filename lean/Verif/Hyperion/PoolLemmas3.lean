import Verif.Hyperion.PoolSpec
import Verif.Hyperion.PoolLemmas2
/-!
# Coins, token links and the full invariant
-/
namespace Hyperion
open StableSort

/-! ## Coins -/

theorem ite_eq_symm (a b : Denom) (n : Nat) : (if a = b then n else 0) = (if b = a then n else 0) := by
  by_cases h : a = b
  · rw [h]
  · rw [if_neg h, if_neg (fun h' => h h'.symm)]

theorem Bank.send_some {b b' : Bank} {src dst : Acct} {d : Denom} {n : Nat} (h : b.send src dst d n = some b') :
    n ≤ b.bal src d ∧ b'.supply = b.supply ∧
      ∀ x e, b'.bal x e = (b.bal x e - if x = src ∧ e = d then n else 0) + if x = dst ∧ e = d then n else 0 := by
  unfold Bank.send at h
  split at h
  · cases h
  · rename_i hlt
    cases h
    refine ⟨by omega, rfl, ?_⟩
    intro x e
    simp only [Bank.credit, Bank.debit]
    split <;> split <;> simp_all

theorem Bank.send_ok {b : Bank} {src : Acct} {d : Denom} {n : Nat} (dst : Acct) (h : n ≤ b.bal src d) :
    ∃ b', b.send src dst d n = some b' := by
  unfold Bank.send
  rw [if_neg (by omega)]
  exact ⟨_, rfl⟩

theorem Bank.mint_bal (b : Bank) (d : Denom) (n : Nat) (x : Acct) (e : Denom) :
    (b.mint d n).bal x e = b.bal x e + if x = .module ∧ e = d then n else 0 := by
  simp only [Bank.mint, Bank.credit]
  split <;> simp

theorem Bank.mint_supply (b : Bank) (d : Denom) (n : Nat) (e : Denom) :
    (b.mint d n).supply e = b.supply e + if e = d then n else 0 := by
  simp only [Bank.mint]
  split <;> simp

theorem Bank.burn_some {b b' : Bank} {d : Denom} {n : Nat} (h : b.burn d n = some b') :
    n ≤ b.bal .module d ∧ n ≤ b.supply d ∧ (∀ e, b'.supply e = b.supply e - if e = d then n else 0) ∧
      ∀ x e, b'.bal x e = b.bal x e - if x = .module ∧ e = d then n else 0 := by
  unfold Bank.burn at h
  split at h
  · cases h
  · rename_i hlt
    cases h
    refine ⟨by omega, by omega, ?_, ?_⟩
    · intro e
      simp only
      split <;> simp
    · intro x e
      simp only [Bank.debit]
      split <;> simp

/-! ## Links -/

/-- Every link of `links` is still there, for the same coin. -/
def LinksExt (links links' : List Link) : Prop :=
  ∀ hid addr l, linkByAddr links hid addr = some l → ∃ l', linkByAddr links' hid addr = some l' ∧ l'.denom = l.denom

theorem LinksExt.refl (links : List Link) : LinksExt links links := fun _ _ l h => ⟨l, h, rfl⟩

theorem LinksExt.trans {a b c : List Link} (h1 : LinksExt a b) (h2 : LinksExt b c) : LinksExt a c := by
  intro hid addr l h
  obtain ⟨l', h3, h4⟩ := h1 hid addr l h
  obtain ⟨l'', h5, h6⟩ := h2 hid addr l' h3
  exact ⟨l'', h5, h6.trans h4⟩

theorem setLocked_keys (links : List Link) (hid addr n : Nat) :
    (setLocked links hid addr n).map (fun l => (l.hid, l.addr)) = links.map (fun l => (l.hid, l.addr)) := by
  unfold setLocked
  rw [List.map_map]
  apply List.map_congr_left
  intro l _
  simp only [Function.comp_apply]
  split <;> rfl

theorem linkByAddr_setLocked (links : List Link) (hid addr n hid' addr' : Nat) :
    linkByAddr (setLocked links hid addr n) hid' addr' =
      (linkByAddr links hid' addr').map (fun l => if l.hid = hid ∧ l.addr = addr then { l with locked := n } else l) := by
  unfold linkByAddr setLocked
  induction links with
  | nil => rfl
  | cons l links ih =>
    simp only [List.map_cons, List.find?_cons]
    have : (decide ((if l.hid = hid ∧ l.addr = addr then { l with locked := n } else l).hid = hid' ∧
        (if l.hid = hid ∧ l.addr = addr then { l with locked := n } else l).addr = addr')) =
        decide (l.hid = hid' ∧ l.addr = addr') := by
      split <;> rfl
    rw [this]
    by_cases h : l.hid = hid' ∧ l.addr = addr'
    · simp [h]
    · simp only [h, decide_false]
      exact ih

theorem setLocked_ext (links : List Link) (hid addr n : Nat) : LinksExt links (setLocked links hid addr n) := by
  intro hid' addr' l h
  rw [linkByAddr_setLocked, h]
  refine ⟨_, rfl, ?_⟩
  simp only
  split <;> rfl

theorem setLocked_ok {links : List Link} (h : LinksOk links) (hid addr n : Nat) : LinksOk (setLocked links hid addr n) := by
  unfold LinksOk
  rw [setLocked_keys]
  exact h

theorem ite_setLocked_ext (c : Bool) (links : List Link) (hid addr n : Nat) :
    LinksExt links (if c then setLocked links hid addr n else links) := by
  split
  · exact setLocked_ext _ _ _ _
  · exact LinksExt.refl _

theorem ite_setLocked_ok {links : List Link} (h : LinksOk links) (c : Bool) (hid addr n : Nat) :
    LinksOk (if c then setLocked links hid addr n else links) := by
  split
  · exact setLocked_ok h _ _ _
  · exact h

theorem linkByAddr_of_mem {links : List Link} (h : LinksOk links) {l : Link} (hl : l ∈ links) :
    linkByAddr links l.hid l.addr = some l := by
  unfold linkByAddr
  cases hf : links.find? (fun x => decide (x.hid = l.hid ∧ x.addr = l.addr)) with
  | none => exact absurd (List.find?_eq_none.1 hf l hl) (by simp)
  | some l' =>
    have h1 := List.mem_of_find?_eq_some hf
    have h2 := List.find?_some hf
    simp only [decide_eq_true_eq] at h2
    rw [nodup_map_inj h h1 hl (by simp [h2.1, h2.2])]

theorem linkByDenom_spec {links : List Link} {hid : Nat} {d : Denom} {l : Link} (h : linkByDenom links hid d = some l) :
    l ∈ links ∧ l.hid = hid ∧ l.denom = d := by
  have h1 := List.mem_of_find?_eq_some h
  have h2 := List.find?_some h
  simp only [decide_eq_true_eq] at h2
  exact ⟨h1, h2.1, h2.2⟩

theorem linkByAddr_append (links : List Link) (l : Link) (hid addr : Nat) {x : Link}
    (h : linkByAddr links hid addr = some x) : linkByAddr (links ++ [l]) hid addr = some x := by
  unfold linkByAddr at *
  rw [List.find?_append, h]
  rfl

theorem append_ext (links : List Link) (l : Link) : LinksExt links (links ++ [l]) := fun _ _ x h =>
  ⟨x, linkByAddr_append links l _ _ h, rfl⟩

theorem append_ok {links : List Link} (h : LinksOk links) {l : Link} (hn : linkByAddr links l.hid l.addr = none) :
    LinksOk (links ++ [l]) := by
  unfold LinksOk
  rw [List.map_append, List.nodup_append]
  refine ⟨h, by simp, ?_⟩
  intro a ha b hb hab
  simp only [List.map_cons, List.map_nil, List.mem_singleton] at hb
  obtain ⟨l', hl', rfl⟩ := List.mem_map.1 ha
  rw [hb] at hab
  have := List.find?_eq_none.1 hn l' hl'
  simp only [decide_eq_true_eq] at this
  exact this (Prod.mk.inj hab)

/-- Withdrawals about linked contracts. -/
def Linked (links : List Link) (txs : List Tx) : Prop := ∀ tx ∈ txs, ∃ l, linkByAddr links tx.hid tx.token = some l

theorem Linked.ext {links links' : List Link} {txs : List Tx} (h : Linked links txs) (he : LinksExt links links') :
    Linked links' txs := by
  intro tx ht
  obtain ⟨l, hl⟩ := h tx ht
  obtain ⟨l', h1, _⟩ := he _ _ _ hl
  exact ⟨l', h1⟩

theorem denomOf_ext {links links' : List Link} (he : LinksExt links links') {tx : Tx} {l : Link}
    (hl : linkByAddr links tx.hid tx.token = some l) : denomOf links' tx = denomOf links tx := by
  obtain ⟨l', h1, h2⟩ := he _ _ _ hl
  unfold denomOf
  rw [hl, h1]
  simp [h2]

theorem amountIn_ext {links links' : List Link} (he : LinksExt links links') (d : Denom) {txs : List Tx}
    (h : Linked links txs) : amountIn links' d txs = amountIn links d txs := by
  unfold amountIn
  congr 1
  apply List.map_congr_left
  intro tx ht
  obtain ⟨l, hl⟩ := h tx ht
  rw [denomOf_ext he hl]

theorem refundTo_ext {links links' : List Link} (he : LinksExt links links') (u : Nat) (d : Denom) {txs : List Tx}
    (h : Linked links txs) : refundTo links' u d txs = refundTo links u d txs := by
  unfold refundTo
  congr 1
  apply List.map_congr_left
  intro tx ht
  obtain ⟨l, hl⟩ := h tx ht
  rw [denomOf_ext he hl]

theorem amountIn_append (links : List Link) (d : Denom) (a b : List Tx) :
    amountIn links d (a ++ b) = amountIn links d a + amountIn links d b := by
  simp [amountIn]

theorem amountIn_cons (links : List Link) (d : Denom) (t : Tx) (b : List Tx) :
    amountIn links d (t :: b) = (if denomOf links t = some d then t.amount else 0) + amountIn links d b := by
  simp [amountIn]

theorem amountIn_perm (links : List Link) (d : Denom) {a b : List Tx} (h : a.Perm b) :
    amountIn links d a = amountIn links d b := (h.map _).sum_nat

theorem feesOf_perm {a b : List Tx} (h : a.Perm b) : feesOf a = feesOf b := (h.map _).sum_nat

theorem feesOf_append (a b : List Tx) : feesOf (a ++ b) = feesOf a + feesOf b := by simp [feesOf]

theorem feesOf_cons (t : Tx) (b : List Tx) : feesOf (t :: b) = t.fee + feesOf b := by simp [feesOf]

theorem refundTo_cons (links : List Link) (u : Nat) (d : Denom) (tx : Tx) (b : List Tx) :
    refundTo links u d (tx :: b) = (if tx.sender = u then
      (if denomOf links tx = some d then tx.amount else 0) + (if d = ahelios then tx.fee else 0) else 0) +
      refundTo links u d b := by
  simp [refundTo]

/-! ## The invariant -/

/-- Withdrawals whose coins are out of the supply of this chain: pending ones, executed ones, and those dropped without
anything being minted. -/
def burnt (s : State) : List Tx :=
  s.pool.map (·.2) ++ endedAs s .executed ++ (s.lost.filter (fun e => !e.2)).map (·.1)

/-- Fees of the pending data requests. -/
def dataFees (s : State) : Nat := (s.data.map (fun e => e.2.fee)).sum

/-- The invariant of all states reached by a history in which the withdrawals `sent` were accepted and in which
`base d` coins of each denomination would exist without withdrawals. -/
structure Inv (sent : List Tx) (base : Denom → Nat) (s : State) : Prop where
  core : Core s.pool s.index s.batches
  acc : (s.pool.map (·.2) ++ s.finalized.map (·.1) ++ s.lost.map (·.1)).Perm sent
  ids : sent.map (·.id) = List.range' 1 s.lastTx
  nle : ∀ e ∈ s.batches, e.2.nonce ≤ s.lastBatch e.2.hid
  dd : KV.Distinct s.data
  dkey : ∀ e ∈ s.data, e.1 = (e.2.hid, e.2.nonce, e.2.contract)
  dnle : ∀ e ∈ s.data, e.2.nonce ≤ s.lastBatch e.2.hid
  lk : LinksOk s.links
  linked : Linked s.links sent
  ledger : ∀ d, s.bank.supply d + amountIn s.links d (burnt s) = base d
  escrow : feesOf (s.pool.map (·.2)) + dataFees s ≤ s.bank.bal .module ahelios

theorem Inv.init (bank : Bank) {links : List Link} (h : LinksOk links) :
    Inv [] bank.supply (State.init bank links) where
  core := Core.init
  acc := .refl _
  ids := rfl
  nle := by simp [State.init]
  dd := List.nodup_nil
  dkey := by simp [State.init]
  dnle := by simp [State.init]
  lk := h
  linked := by intro tx h; cases h
  ledger := by simp [State.init, burnt, endedAs, amountIn]
  escrow := by simp [State.init, feesOf, dataFees]

variable {sent : List Tx} {base : Denom → Nat} {s s' : State}

theorem Inv.mem_sent (i : Inv sent base s) {tx : Tx} (h : tx ∈ s.pool.map (·.2)) : tx ∈ sent :=
  i.acc.mem_iff.1 (List.mem_append_left _ (List.mem_append_left _ h))

theorem Inv.fin_sent (i : Inv sent base s) {tx : Tx} (h : tx ∈ s.finalized.map (·.1)) : tx ∈ sent :=
  i.acc.mem_iff.1 (List.mem_append_left _ (List.mem_append_right _ h))

theorem Inv.lost_sent (i : Inv sent base s) {tx : Tx} (h : tx ∈ s.lost.map (·.1)) : tx ∈ sent :=
  i.acc.mem_iff.1 (List.mem_append_right _ h)

theorem endedAs_sub {s : State} {r : Ended} {tx : Tx} (h : tx ∈ endedAs s r) : tx ∈ s.finalized.map (·.1) := by
  unfold endedAs at h
  obtain ⟨e, he, rfl⟩ := List.mem_map.1 h
  exact List.mem_map_of_mem (f := (·.1)) (List.mem_filter.1 he).1

theorem Inv.burnt_sent (i : Inv sent base s) {tx : Tx} (h : tx ∈ burnt s) : tx ∈ sent := by
  unfold burnt at h
  rcases List.mem_append.1 h with h | h
  · rcases List.mem_append.1 h with h | h
    · exact i.mem_sent h
    · exact i.fin_sent (endedAs_sub h)
  · obtain ⟨e, he, rfl⟩ := List.mem_map.1 h
    exact i.lost_sent (List.mem_map_of_mem (f := (·.1)) (List.mem_filter.1 he).1)

theorem Inv.id_le (i : Inv sent base s) {tx : Tx} (h : tx ∈ sent) : 1 ≤ tx.id ∧ tx.id ≤ s.lastTx := by
  have : tx.id ∈ sent.map (·.id) := List.mem_map_of_mem (f := (·.id)) h
  rw [i.ids, List.mem_range'_1] at this
  omega

/-- Refunds pay the senders: the balances of all users grow by exactly what the newly refunded withdrawals stand for. -/
def Paid (s s' : State) : Prop :=
  LinksExt s.links s'.links ∧ ∃ new, endedAs s' .refunded = new ++ endedAs s .refunded ∧
    endedAs s' .executed = endedAs s .executed ∧
    ∀ u d, s'.bank.bal (.user u) d = s.bank.bal (.user u) d + refundTo s'.links u d new

theorem Paid.refl (s : State) : Paid s s := ⟨LinksExt.refl _, [], rfl, rfl, fun u d => by simp [refundTo]⟩

theorem refundTo_append (links : List Link) (u : Nat) (d : Denom) (a b : List Tx) :
    refundTo links u d (a ++ b) = refundTo links u d a + refundTo links u d b := by simp [refundTo]

theorem Paid.trans {a b c : State} (ib : Inv sent base b) (h1 : Paid a b) (h2 : Paid b c) : Paid a c := by
  obtain ⟨e1, n1, p1, x1, q1⟩ := h1
  obtain ⟨e2, n2, p2, x2, q2⟩ := h2
  refine ⟨e1.trans e2, n2 ++ n1, ?_, x2.trans x1, ?_⟩
  · rw [p2, p1, List.append_assoc]
  · intro u d
    rw [q2, q1, refundTo_append]
    have : refundTo c.links u d n1 = refundTo b.links u d n1 := by
      apply refundTo_ext e2
      intro tx ht
      exact ib.linked tx (ib.fin_sent (endedAs_sub (by rw [p1]; exact List.mem_append_left _ ht)))
    rw [this]
    omega

/-! ## Refunds -/

theorem payRefund_inv {cfg : Cfg} {tx : Tx} (i : Inv sent base s) (hg : KV.get s.pool (tx.hid, tx.id) = some tx)
    {ix : Index} (hr : removeIdx s.index (tx.hid, tx.token, tx.fee) tx.id = some ix) :
    Inv sent base (payRefund cfg { s with index := ix, pool := KV.del s.pool (tx.hid, tx.id) } tx).1 ∧
    Paid s (payRefund cfg { s with index := ix, pool := KV.del s.pool (tx.hid, tx.id) } tx).1 := by
  have hcore := i.core.remove hg hr
  have hpp := pool_perm_del i.core hg
  have hsent : tx ∈ sent := i.mem_sent (List.mem_map_of_mem (f := (·.2)) (KV.mem_of_get hg))
  obtain ⟨l, hl⟩ := i.linked tx hsent
  have hden : denomOf s.links tx = some l.denom := by simp [denomOf, hl]
  have hlost : ∀ b : Bool, (((KV.del s.pool (tx.hid, tx.id)).map (·.2) ++ s.finalized.map (·.1)) ++
      ((tx, b) :: s.lost).map (·.1)).Perm sent := by
    intro b
    refine List.Perm.trans ?_ i.acc
    simp only [List.map_cons]
    refine List.perm_middle.trans ?_
    rw [← List.cons_append, ← List.cons_append]
    exact (hpp.symm.append_right _).append_right _
  have hfin : (((KV.del s.pool (tx.hid, tx.id)).map (·.2) ++ ((tx, Ended.refunded) :: s.finalized).map (·.1)) ++
      s.lost.map (·.1)).Perm sent := by
    refine List.Perm.trans ?_ i.acc
    simp only [List.map_cons]
    refine List.Perm.append_right _ ?_
    refine List.perm_middle.trans ?_
    rw [← List.cons_append]
    exact hpp.symm.append_right _
  have hfee : feesOf (s.pool.map (·.2)) = tx.fee + feesOf ((KV.del s.pool (tx.hid, tx.id)).map (·.2)) := by
    rw [feesOf_perm hpp, feesOf_cons]
  have hesc := i.escrow
  rw [hfee] at hesc
  have hburn : ∀ links d, amountIn links d (s.pool.map (·.2)) = (if denomOf links tx = some d then tx.amount else 0) +
      amountIn links d ((KV.del s.pool (tx.hid, tx.id)).map (·.2)) := by
    intro links d
    rw [amountIn_perm links d hpp, amountIn_cons]
  have hdel_linked : Linked s.links ((KV.del s.pool (tx.hid, tx.id)).map (·.2)) := fun t ht =>
    i.linked t (i.mem_sent (by
      obtain ⟨e, he, rfl⟩ := List.mem_map.1 ht
      exact List.mem_map_of_mem (f := (·.2)) (KV.mem_del.1 he).1))
  have hrest_linked : Linked s.links (endedAs s .executed ++ (s.lost.filter (fun e => !e.2)).map (·.1)) := fun t ht =>
    i.linked t (i.burnt_sent (by
      unfold burnt
      rw [List.append_assoc]
      exact List.mem_append_right _ ht))
  have hled : ∀ d, s.bank.supply d + ((if denomOf s.links tx = some d then tx.amount else 0) +
      (amountIn s.links d ((KV.del s.pool (tx.hid, tx.id)).map (·.2)) +
       amountIn s.links d (endedAs s .executed ++ (s.lost.filter (fun e => !e.2)).map (·.1)))) = base d := by
    intro d
    have := i.ledger d
    unfold burnt at this
    rw [List.append_assoc, amountIn_append, hburn] at this
    omega
  have hcast : ∀ b, (s.bank.mint l.denom tx.amount).bal .module b =
      s.bank.bal .module b + if b = l.denom then tx.amount else 0 := by
    intro b
    rw [Bank.mint_bal]
    simp
  -- the two ways of failing
  have case1 : Inv sent base { s with index := ix, pool := KV.del s.pool (tx.hid, tx.id), lost := (tx, false) :: s.lost } ∧
      Paid s { s with index := ix, pool := KV.del s.pool (tx.hid, tx.id), lost := (tx, false) :: s.lost } := by
    refine ⟨?_, LinksExt.refl _, [], rfl, rfl, fun u d => by simp [refundTo]⟩
    refine
      { core := hcore
        acc := hlost false
        ids := i.ids
        nle := i.nle
        dd := i.dd
        dkey := i.dkey
        dnle := i.dnle
        lk := i.lk
        linked := i.linked
        ledger := ?_
        escrow := by
          show feesOf ((KV.del s.pool (tx.hid, tx.id)).map (·.2)) + dataFees s ≤ s.bank.bal .module ahelios
          omega }
    intro d
    have := hled d
    rw [amountIn_append] at this
    unfold burnt endedAs
    simp only [List.filter_cons, Bool.not_false, if_true, List.map_cons]
    rw [amountIn_append, amountIn_append, amountIn_cons]
    unfold endedAs at this
    omega
  have case2 : ∀ links', LinksExt s.links links' → LinksOk links' →
      Inv sent base { s with index := ix, pool := KV.del s.pool (tx.hid, tx.id), bank := s.bank.mint l.denom tx.amount,
                             links := links', lost := (tx, true) :: s.lost } ∧
      Paid s { s with index := ix, pool := KV.del s.pool (tx.hid, tx.id), bank := s.bank.mint l.denom tx.amount,
                      links := links', lost := (tx, true) :: s.lost } := by
    intro links' hext hok
    refine ⟨?_, hext, [], rfl, rfl, fun u d => by simp [refundTo, Bank.mint_bal]⟩
    refine
      { core := hcore
        acc := hlost true
        ids := i.ids
        nle := i.nle
        dd := i.dd
        dkey := i.dkey
        dnle := i.dnle
        lk := hok
        linked := i.linked.ext hext
        ledger := ?_
        escrow := by
          show feesOf ((KV.del s.pool (tx.hid, tx.id)).map (·.2)) + dataFees s ≤
            (s.bank.mint l.denom tx.amount).bal .module ahelios
          rw [hcast]
          omega }
    intro d
    have := hled d
    unfold burnt
    simp only [List.filter_cons, Bool.not_true, Bool.false_eq_true, if_false]
    show _ + amountIn links' d (_ ++ endedAs s .executed ++ _) = _
    rw [Bank.mint_supply, List.append_assoc, amountIn_append, amountIn_ext hext d hdel_linked,
      amountIn_ext hext d hrest_linked]
    rw [hden] at this
    simp only [Option.some.injEq] at this
    have h3 : (if d = l.denom then tx.amount else 0) = (if l.denom = d then tx.amount else 0) := ite_eq_symm _ _ _
    rw [h3]
    omega
  unfold payRefund
  simp only [hl]
  split
  · exact case1
  · split
    · exact case2 _ (ite_setLocked_ext _ _ _ _ _) (ite_setLocked_ok i.lk _ _ _ _)
    · split
      · exact case2 _ (ite_setLocked_ext _ _ _ _ _) (ite_setLocked_ok i.lk _ _ _ _)
      · rename_i b2 hb2
        obtain ⟨g1, g2, g3⟩ := Bank.send_some hb2
        have hmod : tx.fee ≤ b2.bal .module ahelios := by
          rw [g3]
          simp only [reduceCtorEq, false_and, if_false, Nat.add_zero, true_and]
          rw [hcast]
          split <;> omega
        obtain ⟨b3, hb3⟩ := Bank.send_ok (.user tx.sender) hmod
        obtain ⟨_, k2, k3⟩ := Bank.send_some hb3
        rw [hb3]
        simp only [Option.getD_some]
        generalize hL : (if isCosmos s.links l.denom = true then setLocked s.links tx.hid tx.token
          (lockedOf s.links tx.hid tx.token - tx.amount) else s.links) = links'
        have hext : LinksExt s.links links' := by rw [← hL]; exact ite_setLocked_ext _ _ _ _ _
        have hok : LinksOk links' := by rw [← hL]; exact ite_setLocked_ok i.lk _ _ _ _
        refine ⟨?_, hext, [tx], rfl, rfl, ?_⟩
        · refine
            { core := hcore
              acc := hfin
              ids := i.ids
              nle := i.nle
              dd := i.dd
              dkey := i.dkey
              dnle := i.dnle
              lk := hok
              linked := i.linked.ext hext
              ledger := ?_
              escrow := ?_ }
          · intro d
            have := hled d
            show b3.supply d + amountIn links' d ((KV.del s.pool (tx.hid, tx.id)).map (·.2) ++
              endedAs s .executed ++ (s.lost.filter (fun e => !e.2)).map (·.1)) = base d
            rw [k2, g2, Bank.mint_supply, List.append_assoc, amountIn_append, amountIn_ext hext d hdel_linked,
              amountIn_ext hext d hrest_linked]
            rw [hden] at this
            simp only [Option.some.injEq] at this
            have h3 : (if d = l.denom then tx.amount else 0) = (if l.denom = d then tx.amount else 0) := ite_eq_symm _ _ _
            rw [h3]
            omega
          · show feesOf ((KV.del s.pool (tx.hid, tx.id)).map (·.2)) + dataFees s ≤ b3.bal .module ahelios
            rw [k3, g3, hcast]
            simp only [reduceCtorEq, false_and, if_false, Nat.add_zero, true_and, and_true, if_true]
            split <;> omega
        · intro u d
          show b3.bal (.user u) d = _
          rw [k3, g3, Bank.mint_bal, refundTo_cons, denomOf_ext hext hl, hden]
          have h0 : refundTo links' u d [] = 0 := rfl
          rw [h0]
          simp only [reduceCtorEq, false_and, if_false, Nat.add_zero, Nat.sub_zero, Acct.user.injEq, Option.some.injEq]
          by_cases hu : u = tx.sender
          · subst hu
            simp only [true_and, if_true]
            have h3 : (if d = l.denom then tx.amount else 0) = (if l.denom = d then tx.amount else 0) := ite_eq_symm _ _ _
            omega
          · rw [if_neg (fun h : tx.sender = u => hu h.symm)]
            simp only [hu, false_and, if_false]

theorem poolTxs_ok (i : Inv sent base s) (hid : Nat) : ∃ txs, poolTxs s hid = some txs ∧
    (txs.map Tx.tag).Perm ((tagsIx s.index).filter (fun t => decide (t.1.1 = hid))) ∧
    (∀ tx ∈ txs, KV.get s.pool (tx.hid, tx.id) = some tx ∧ tx.tag ∈ tagsIx s.index ∧ tx.hid = hid) := by
  obtain ⟨txs, h1, _, h3, h4⟩ := i.core.lookupChain hid
  refine ⟨txs, ?_, h3, h4⟩
  unfold poolTxs
  rw [h1]
  simp only [Option.map_some, Option.some.injEq]
  rw [List.filter_eq_self]
  intro tx ht
  simpa using (h4 tx ht).2.2

theorem refund_inv (cfg : Cfg) (i : Inv sent base s) (hid id sender : Nat) :
    ∃ s' ok, refund cfg s hid id sender = some (s', ok) ∧ Inv sent base s' ∧ Paid s s' := by
  unfold refund
  cases hg : KV.get s.pool (hid, id) with
  | none => exact ⟨s, false, rfl, i, Paid.refl s⟩
  | some tx =>
    simp only
    split
    · exact ⟨s, false, rfl, i, Paid.refl s⟩
    · obtain ⟨txs, h1, h2, h3⟩ := poolTxs_ok i tx.hid
      obtain ⟨k1, k2⟩ := i.core.key hg
      rw [h1]
      simp only
      split
      · cases hr : removeIdx s.index (tx.hid, tx.token, tx.fee) id with
        | none => exact ⟨s, false, rfl, i, Paid.refl s⟩
        | some ix =>
          subst k2
          rw [← k1] at hg
          have := payRefund_inv (cfg := cfg) i hg hr
          exact ⟨_, _, rfl, this⟩
      · exact ⟨s, false, rfl, i, Paid.refl s⟩

end Hyperion
