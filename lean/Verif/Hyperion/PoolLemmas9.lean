import Verif.Hyperion.PoolLemmas7
/-!
# Coins of this chain: what exists here and what is out on other chains
-/
namespace Hyperion

/-- What the links say is out of denomination `d`, over all counterparty chains. -/
def lockedTotal (links : List Link) (d : Denom) : Nat := (links.map (fun l => if l.denom = d then l.locked else 0)).sum

/-- Units of a denomination made by linking it, one each time. -/
def createdIn (d : Denom) : List Ev → Nat
  | [] => 0
  | .created d' :: evs => (if d' = d then 1 else 0) + createdIn d evs
  | _ :: evs => createdIn d evs

theorem createdIn_append (d : Denom) (a b : List Ev) : createdIn d (a ++ b) = createdIn d a + createdIn d b := by
  induction a with
  | nil => simp [createdIn]
  | cons e a ih => cases e <;> simp only [List.cons_append, createdIn, ih] <;> omega

theorem lockedTotal_setLocked {links : List Link} (h : LinksOk links) {hid addr : Nat} {l : Link}
    (hl : linkByAddr links hid addr = some l) (n : Nat) (d : Denom) :
    lockedTotal (setLocked links hid addr n) d + (if l.denom = d then l.locked else 0) =
      lockedTotal links d + (if l.denom = d then n else 0) := by
  induction links with
  | nil => cases hl
  | cons x links ih =>
    have h' : LinksOk links := (List.nodup_cons.1 h).2
    have hx := (List.nodup_cons.1 h).1
    unfold linkByAddr at hl
    rw [List.find?_cons] at hl
    by_cases hk : x.hid = hid ∧ x.addr = addr
    · simp only [hk, and_self, decide_true, Option.some.injEq] at hl
      subst hl
      have hrest : setLocked links hid addr n = links := by
        unfold setLocked
        rw [List.map_congr_left (g := id), List.map_id]
        intro y hy
        rw [if_neg]
        · rfl
        · rintro ⟨rfl, rfl⟩
          exact hx (List.mem_map.2 ⟨y, hy, by simp [hk.1, hk.2]⟩)
      have : setLocked (x :: links) hid addr n = { x with locked := n } :: setLocked links hid addr n := by
        simp [setLocked, hk]
      rw [this, hrest]
      simp only [lockedTotal, List.map_cons, List.sum_cons]
      omega
    · simp only [hk, decide_false] at hl
      have := ih h' hl
      have h2 : setLocked (x :: links) hid addr n = x :: setLocked links hid addr n := by
        simp [setLocked, hk]
      rw [h2]
      simp only [lockedTotal, List.map_cons, List.sum_cons] at *
      omega

/-- The invariant: `d` is a coin of this chain and `k` of it exist, here or on other chains. -/
structure Native (d : Denom) (k : Nat) (s : State) : Prop where
  ok : LinksOk s.links
  cos : isCosmos s.links d = true
  eq : s.bank.supply d + lockedTotal s.links d = k

variable {cfg : Cfg} {s s' : State} {d : Denom} {k : Nat}

theorem Native.congr (i : Native d k s) (h1 : s'.bank.supply = s.bank.supply) (h2 : s'.links = s.links) : Native d k s' := by
  refine ⟨h2 ▸ i.ok, h2 ▸ i.cos, ?_⟩
  rw [h1, h2]
  exact i.eq

theorem Native.issue {hid addr amount : Nat} {l : Link} (i : Native d k s) (hl : linkByAddr s.links hid addr = some l)
    (hle : isCosmos s.links l.denom = true → amount ≤ lockedOf s.links hid addr) {bk : Bank}
    (hb : bk.supply = (s.bank.mint l.denom amount).supply)
    (h1 : s'.bank = bk)
    (h2 : s'.links = if isCosmos s.links l.denom then setLocked s.links hid addr (lockedOf s.links hid addr - amount)
      else s.links) : Native d k s' := by
  refine ⟨h2 ▸ ite_setLocked_ok i.ok _ _ _ _, ?_, ?_⟩
  · rw [h2]
    split
    · rw [isCosmos_setLocked]; exact i.cos
    · exact i.cos
  · rw [h1, h2, hb, Bank.mint_supply]
    have e := i.eq
    by_cases hd : l.denom = d
    · have hc := i.cos
      rw [← hd] at hc
      rw [if_pos hc, if_pos hd.symm]
      have h3 := lockedTotal_setLocked i.ok hl (lockedOf s.links hid addr - amount) d
      rw [if_pos hd, if_pos hd] at h3
      have h4 := hle hc
      rw [lockedOf_eq hl] at *
      omega
    · rw [if_neg (fun h => hd h.symm)]
      split
      · have h3 := lockedTotal_setLocked i.ok hl (lockedOf s.links hid addr - amount) d
        rw [if_neg hd, if_neg hd] at h3
        omega
      · omega

theorem payRefund_native (i : Native d k s) (tx : Tx) : Native d k (payRefund cfg s tx).1 := by
  unfold payRefund
  split
  · exact i.congr rfl rfl
  · rename_i l hl
    dsimp only
    split
    · exact i.congr rfl rfl
    · rename_i hn
      have hle : isCosmos s.links l.denom = true → tx.amount ≤ lockedOf s.links tx.hid tx.token := by
        intro hc
        rw [hc] at hn
        simp only [Bool.true_and, decide_eq_true_eq] at hn
        omega
      split
      · exact i.issue hl hle (bk := s.bank.mint l.denom tx.amount) rfl rfl rfl
      · split
        · exact i.issue hl hle (bk := s.bank.mint l.denom tx.amount) rfl rfl rfl
        · rename_i b2 hb2
          refine i.issue hl hle (bk := (b2.send .module (.user tx.sender) ahelios tx.fee).getD b2) ?_ rfl rfl
          obtain ⟨_, h2, _⟩ := Bank.send_some hb2
          cases h3 : b2.send .module (.user tx.sender) ahelios tx.fee with
          | none => exact h2
          | some b3 => exact (Bank.send_some h3).2.1.trans h2

theorem refund_native (i : Native d k s) {hid id sender : Nat} {ok : Bool}
    (h : refund cfg s hid id sender = some (s', ok)) : Native d k s' := by
  unfold refund at h
  split at h
  · cases h; exact i
  · split at h
    · cases h; exact i
    · split at h
      · cases h
      · split at h
        · split at h
          · cases h; exact i
          · have h' := congrArg Prod.fst (Option.some.inj h)
            simp only at h'
            rw [← h']
            apply payRefund_native
            exact i.congr rfl rfl
        · cases h; exact i

theorem refundIf_native {hid : Nat} {due : Tx → Bool} {L : List Tx} : ∀ {s s' : State}, Native d k s →
    refundIf cfg hid due L s = some s' → Native d k s' := by
  induction L with
  | nil =>
    intro s s' i h
    cases h
    exact i
  | cons tx L ih =>
    intro s s' i h
    unfold refundIf at h
    split at h
    · split at h
      · cases h
      · rename_i s1 ok h1
        exact ih (refund_native i h1) h
    · exact ih i h

theorem cleanPool_native {hid : Nat} {L : List Tx} : ∀ {s s' : State}, Native d k s →
    cleanPool cfg hid L s = some s' → Native d k s' := by
  induction L with
  | nil =>
    intro s s' i h
    cases h
    exact i
  | cons tx L ih =>
    intro s s' i h
    unfold cleanPool at h
    split at h
    · cases h
    · rename_i s1 ok h1
      exact ih (refund_native i h1) h

theorem cancelBatch_native (i : Native d k s) {hid token nonce : Nat} (h : cancelBatch s hid token nonce = some s') :
    Native d k s' := by
  unfold cancelBatch at h
  split at h
  · cases h
  · cases h; exact i.congr rfl rfl

theorem cancelIf_native {due : Batch → Bool} {L : List Batch} : ∀ {s : State}, Native d k s → Native d k (cancelIf due L s) := by
  induction L with
  | nil => exact fun i => i
  | cons b L ih =>
    intro s i
    unfold cancelIf
    apply ih
    split
    · cases h : cancelBatch s b.hid b.token b.nonce with
      | none => exact i
      | some s1 => exact cancelBatch_native i h
    · exact i

theorem cancelEarlier_native {hid token nonce : Nat} {L : List Batch} : ∀ {s s' : State}, Native d k s →
    cancelEarlier hid token nonce L s = some s' → Native d k s' := by
  induction L with
  | nil => intro s s' i h; cases h; exact i
  | cons b L ih =>
    intro s s' i h
    unfold cancelEarlier at h
    split at h
    · split at h
      · cases h
      · rename_i s1 h1
        exact ih (cancelBatch_native i h1) h
    · exact ih i h

theorem createLink_native (i : Native d k s) {hid addr : Nat} {e : Denom} {o : Bool} (hn : linkByAddr s.links hid addr = none)
    (ho : o = true → e ≠ d) : Native d (k + if e = d then 1 else 0) (createLink s hid addr e o) := by
  have hlt : ∀ x : Link, lockedTotal (s.links ++ [x]) d = lockedTotal s.links d + if x.denom = d then x.locked else 0 := by
    intro x
    simp [lockedTotal]
  have heq : (s.bank.mint e 1).supply d + lockedTotal s.links d = k + if e = d then 1 else 0 := by
    rw [Bank.mint_supply, ite_eq_symm d e 1]
    have := i.eq
    omega
  unfold createLink
  generalize hL : (if (linkByDenom s.links hid e).isSome = true then s.links else _) = links'
  split at hL
  · subst hL
    exact ⟨i.ok, i.cos, heq⟩
  · subst hL
    refine ⟨append_ok (l := { hid := hid, addr := addr, denom := e, originated := o, locked := 0 }) i.ok hn, ?_, ?_⟩
    · have := i.cos
      unfold isCosmos at *
      simp only [List.all_append, this, List.all_cons, List.all_nil, Bool.and_true, Bool.true_and]
      cases o with
      | false => simp
      | true => simp [ho rfl]
    · simp only
      rw [hlt]
      simp only [ite_self, Nat.add_zero]
      exact heq

theorem addToPool_native (i : Native d k s) {sender hid dest : Nat} {e : Denom} {amount : Nat} {feeDenom : Denom}
    {fee timeout : Nat} {tx : Tx} (h : addToPool s sender hid dest e amount feeDenom fee timeout = some (s', tx)) :
    Native d k s' := by
  unfold addToPool at h
  split at h
  · cases h
  · cases hl : linkByDenom s.links hid e with
    | none => rw [hl] at h; cases h
    | some l =>
      rw [hl] at h
      dsimp only at h
      obtain ⟨m1, m2, m3⟩ := linkByDenom_spec hl
      have hla := linkByAddr_of_mem i.ok m1
      rw [m2] at hla
      split at h
      · cases h
      · generalize hL : (if isCosmos s.links e = true then _ else s.links) = links' at h
        split at h
        · cases h
        · rename_i b1 hb1
          split at h
          · cases h
          · rename_i b2 hb2
            split at h
            · cases h
            · rename_i b3 hb3
              cases h
              obtain ⟨_, q1, _⟩ := Bank.send_some hb1
              obtain ⟨_, q2, q3, _⟩ := Bank.burn_some hb2
              obtain ⟨_, q4, _⟩ := Bank.send_some hb3
              have q := i.eq
              refine ⟨?_, ?_, ?_⟩
              · show LinksOk links'
                rw [← hL]
                exact ite_setLocked_ok i.ok _ _ _ _
              · show isCosmos links' d = true
                rw [← hL]
                split
                · rw [isCosmos_setLocked]; exact i.cos
                · exact i.cos
              · show b3.supply d + lockedTotal links' d = k
                rw [q4, q3, q1]
                rw [q1] at q2
                by_cases hd : e = d
                · subst hd
                  rw [if_pos i.cos] at hL
                  have h3 := lockedTotal_setLocked i.ok hla (lockedOf s.links hid l.addr + amount) e
                  rw [hL, if_pos m3, if_pos m3, lockedOf_eq hla] at h3
                  rw [if_pos rfl]
                  omega
                · rw [if_neg (fun h => hd h.symm)]
                  have hne : ¬ l.denom = d := by rw [m3]; exact hd
                  split at hL
                  · have h3 := lockedTotal_setLocked i.ok hla (lockedOf s.links hid l.addr + amount) d
                    rw [hL, if_neg hne, if_neg hne] at h3
                    omega
                  · subst hL
                    omega

theorem deposit_native {n : Nat} (i : Native (.named n) k s) {hid addr amount : Nat} {receiver : Option Nat} {evs : List Ev}
    (h : deposit cfg s hid addr amount receiver = some (s', evs)) : Native (.named n) (k + createdIn (.named n) evs) s' := by
  unfold deposit at h
  cases hl : linkByAddr s.links hid addr with
  | some l =>
    rw [hl] at h
    dsimp only at h
    generalize hch : (if isCosmos s.links l.denom = true then _ else _ : Option (List Link)) = checked at h
    split at h
    · cases h
    · rename_i links
      split at h
      · cases h
      · rename_i b2 hb2
        cases h
        obtain ⟨_, q, _⟩ := Bank.send_some hb2
        refine i.issue (k := k) hl (amount := amount) ?_ (bk := b2) q rfl ?_
        · intro hc
          rw [if_pos hc] at hch
          split at hch
          · cases hch
          · omega
        · show links = _
          split at hch
          · split at hch
            · cases hch
            · rename_i hc _
              rw [if_pos hc]
              exact (Option.some.inj hch).symm
          · split at hch
            · rename_i hc _
              rw [if_neg hc]
              exact (Option.some.inj hch).symm
            · cases hch
  | none =>
    rw [hl] at h
    dsimp only at h
    simp only [Bool.false_eq_true, if_false] at h
    split at h
    · cases h
    · rename_i links hch
      split at hch
      · cases hch
        split at h
        · cases h
        · rename_i b2 hb2
          cases h
          obtain ⟨_, q, _⟩ := Bank.send_some hb2
          have h1 := createLink_native i (e := .bridged hid addr) (o := true) hl (fun _ h => Denom.noConfusion h)
          rw [if_neg (fun h => Denom.noConfusion h)] at h1
          refine ⟨h1.ok, h1.cos, ?_⟩
          show b2.supply _ + _ = _
          rw [q, Bank.mint_supply, if_neg (fun h => Denom.noConfusion h)]
          simp only [List.cons_append, List.nil_append, createdIn]
          rw [if_neg (fun h => Denom.noConfusion h)]
          exact h1.eq
      · cases hch

theorem step_native {n : Nat} (i : Native (.named n) k s) (o : Op) :
    Native (.named n) (k + createdIn (.named n) (step cfg s o).2.evs) (step cfg s o).1 := by
  cases o with
  | send sender hid dest d amount feeDenom fee timeout =>
    simp only [step]
    cases h : addToPool s sender hid dest d amount feeDenom fee timeout with
    | none => exact i
    | some r => exact addToPool_native i (tx := r.2) h
  | cancelSend sender hid id =>
    simp only [step]
    cases h : refund cfg s hid id sender with
    | none => exact i
    | some r =>
      obtain ⟨s1, ok⟩ := r
      cases ok
      · exact i
      · exact refund_native i h
  | requestBatch hid d timeout =>
    simp only [step]
    cases hl : linkByDenom s.links hid d with
    | none => exact i
    | some l =>
      simp only
      cases h : buildBatch cfg s hid l.addr timeout with
      | none => exact i
      | some r =>
        unfold buildBatch at h
        split at h
        · cases h
        · dsimp only at h
          split at h
          · cases h
          · cases h
            exact i.congr rfl rfl
  | requestBatchIds hid d timeout ids =>
    simp only [step]
    cases hl : linkByDenom s.links hid d with
    | none => exact i
    | some l =>
      simp only
      cases h : buildBatchIds cfg s hid l.addr timeout ids with
      | none => exact i
      | some r =>
        unfold buildBatchIds at h
        split at h
        · cases h
        · split at h
          · cases h
          · split at h
            · cases h
            · cases h
              exact i.congr rfl rfl
  | deposit hid addr amount receiver =>
    simp only [step]
    cases h : deposit cfg s hid addr amount receiver with
    | none => exact i
    | some r => exact deposit_native i (evs := r.2) h
  | executed hid token nonce orch =>
    simp only [step]
    cases h : batchExecuted cfg s hid token nonce orch with
    | none => exact i
    | some s' =>
      unfold batchExecuted at h
      split at h
      · cases h; exact i
      · dsimp only at h
        split at h
        · cases h
        · rename_i s2 h2
          split at h
          · cases h
          · split at h
            · cases h
            · rename_i bk hbk
              cases h
              have i2 : Native (.named n) k s2 := by
                refine cancelEarlier_native ?_ h2
                exact i.congr rfl rfl
              exact i2.congr (Bank.send_some hbk).2.1 rfl
  | timeouts hid projected paused =>
    simp only [step]
    cases h : timeouts cfg s hid projected paused with
    | none => exact i
    | some s' =>
      unfold timeouts at h
      dsimp only at h
      split at h
      · cases h
      · exact refundIf_native (cancelIf_native i) h
  | cleanAll hid =>
    simp only [step]
    cases h : cleanAll cfg s hid with
    | none => exact i
    | some s' =>
      unfold cleanAll at h
      dsimp only at h
      split at h
      · cases h
      · split at h
        · cases h
        · rename_i s2 h2
          split at h
          · cases h
          · exact cleanPool_native (refundIf_native (cancelIf_native i) h2) h
  | link hid addr d =>
    simp only [step]
    split
    · exact i
    · rename_i hn
      have hn' : linkByAddr s.links hid addr = none := by
        cases h : linkByAddr s.links hid addr with
        | none => rfl
        | some l => rw [h] at hn; simp at hn
      have := createLink_native i (e := d) (o := false) hn' (fun h => Bool.noConfusion h)
      simpa only [Out.evs, createdIn, Nat.add_zero] using this
  | transfer src dst d n =>
    simp only [step]
    split
    · exact i
    · rename_i b hb
      exact i.congr (Bank.send_some hb).2.1 rfl
  | dataRequest origin hid contract fee =>
    simp only [step]
    cases h : dataRequest s origin hid contract fee with
    | none => exact i
    | some s' =>
      unfold dataRequest at h
      split at h
      · cases h
      · rename_i b hb
        cases h
        exact i.congr (Bank.send_some hb).2.1 rfl
  | dataExecute hid nonce contract votes =>
    simp only [step, dataExecute]
    split
    · exact i
    · exact i.congr (foldl_tryPay _ _ _ _).1 rfl
  | dataTimeout hid nonce contract =>
    simp only [step, dataTimeout]
    split
    · exact i
    · exact i.congr (tryPay_spec _ _ _ _).1 rfl

theorem run_native {n : Nat} (ops : List Op) : ∀ {k : Nat} {s : State}, Native (.named n) k s →
    Native (.named n) (k + createdIn (.named n) (events (run cfg s ops).2)) (run cfg s ops).1 := by
  induction ops with
  | nil => exact fun i => i
  | cons o os ih =>
    intro k s i
    have := ih (step_native (cfg := cfg) i o)
    simp only [run, events, List.flatMap_cons, createdIn_append]
    rw [← Nat.add_assoc]
    exact this

end Hyperion
