import Verif.EVM.StateDBLemmas2
/-!
# EVM state: every operation, and the undoing of every entry, agrees with the specification
-/
namespace EVM

variable {H : Bytes → Hash} {K : Store} {S : Bytes → Prop} {W : Prop}

/-! ### Forward -/

/-- The outcome of an operation agrees with the specification. -/
def Sim (H : Bytes → Hash) (K : Store) (S : Bytes → Prop) (W : Prop) (s : SDB) (r : Option (SDB × Out)) (r' : Option (View × Out)) : Prop :=
  (r' = none ∧ r = none) ∨ ∃ s' o, r = some (s', o) ∧ r' = some (s'.view H K, o) ∧ Trans H K S W s s'

theorem Sim.ok {s s' : SDB} {o : Out} (h : Trans H K S W s s') : Sim H K S W s (some (s', o)) (some (s'.view H K, o)) :=
  .inr ⟨s', o, rfl, rfl, h⟩

theorem Sim.load (hW : W → WF H K S) {s : SDB} (h : Inv H K S W s) (a : Addr) {o o' : Out} (e : o = o') :
    Sim H K S W s (some (s.load H K a, o)) (some (s.view H K, o')) :=
  .inr ⟨_, _, rfl, by rw [view_load, e], trans_load hW h a⟩

theorem Inv.append_skip {s : SDB} (h : Inv H K S W s) {e : Entry} (he : e.dirtied = none) (hok : EntryOK H K S W s.journal e)
    {s' : SDB} (ho : s'.objs = s.objs) (hj : s'.journal = e :: s.journal) (hd : s'.dirties = s.dirties)
    (hal : s'.al = rebuild (e :: s.journal)) : Inv H K S W s' := by
  refine ⟨by rw [ho]; exact h.objs, by rw [hj]; exact ⟨hok, h.journal⟩, by rw [hj]; exact hal, ?_, ?_⟩
  · rw [hd, hj]; exact h.dirties.skip he
  · intro a ha
    rw [hj, touches_cons_other (by rw [he]; simp)] at ha
    rw [ho]; exact h.live a ha

theorem rebuild_wf (j : List Entry) : (rebuild j).WF := by
  induction j with
  | nil => exact AccessList.WF.empty
  | cons e j ih =>
    cases e with
    | alAddr a => exact ih.addAddress a
    | alSlot a k => exact ih.addSlot a k
    | _ => exact ih

/-- The view of a state that differs from `s` by an entry that dirties nothing. -/
theorem view_skip {s s' : SDB} {e : Entry} (he : e.dirtied = none) (hr : ∀ b, e.isReset b = false)
    (ho : s'.objs = s.objs) (hj : s'.journal = e :: s.journal) :
    s'.view H K = { s.view H K with
      refund := s'.refund, logs := s'.logs, warm := fun a => s'.al.containsAddress a, warmSlot := fun a k => (s'.al.contains a k).2 } := by
  have hl : ∀ a, s'.lookup H K a = s.lookup H K a := by intro a; unfold SDB.lookup; rw [ho]
  unfold SDB.view View.marks
  simp only [hl, hj, View.mk.injEq, true_and]
  constructor
  · funext a; simp [he]
  · funext a; simp [hr]

theorem view_noentry {s : SDB} {al : AccessList} (h : al = s.al) : ({ s with al } : SDB) = s := by subst h; rfl

theorem trans_skip {s s' : SDB} (h : Inv H K S W s) {e : Entry} (he : e.dirtied = none) (hr : ∀ b, e.isReset b = false)
    (hok : EntryOK H K S W s.journal e)
    (ho : s'.objs = s.objs) (hj : s'.journal = e :: s.journal) (hd : s'.dirties = s.dirties)
    (hal : s'.al = rebuild (e :: s.journal)) (hrv : s'.revs = s.revs) (hn : s'.nextRev = s.nextRev) (hl : s'.logIndex = s.logIndex)
    (hu : vundo H K { s.view H K with
      refund := s'.refund, logs := s'.logs, warm := fun a => s'.al.containsAddress a, warmSlot := fun a k => (s'.al.contains a k).2 } e =
        some (s.view H K)) :
    Trans H K S W s s' ∧ s'.view H K = { s.view H K with
      refund := s'.refund, logs := s'.logs, warm := fun a => s'.al.containsAddress a, warmSlot := fun a k => (s'.al.contains a k).2 } := by
  have hv := view_skip (H := H) (K := K) he hr ho hj
  exact ⟨Trans.one (v := s.view H K) (h.append_skip he hok ho hj hd hal) hj (by rw [hv]; exact hu) rfl hrv hn hl, hv⟩

theorem trans_alAddr {s : SDB} (h : Inv H K S W s) {a : Addr} (ha : s.al.addresses a = none) :
    Trans H K S W s { (s.append (.alAddr a)) with al := (s.al.addAddress a).1 } ∧
    SDB.view H K { (s.append (.alAddr a)) with al := (s.al.addAddress a).1 } =
      { s.view H K with warm := upd (s.view H K).warm a true } := by
  obtain ⟨v1, v2⟩ := AccessList.addAddress_view (al := s.al) a
  have hrb : rebuild (.alAddr a :: s.journal) = (s.al.addAddress a).1 := by rw [h.al]; rfl
  have := trans_skip (s' := { (s.append (.alAddr a)) with al := (s.al.addAddress a).1 }) h (e := .alAddr a) rfl (fun _ => rfl)
    (by show (rebuild s.journal).addresses a = none; rw [← h.al]; exact ha) rfl rfl rfl hrb.symm rfl rfl rfl (by
      simp only [v1, v2, vundo, upd_upd]
      congr 1
      have : upd s.al.containsAddress a false = s.al.containsAddress := upd_self (by simp [AccessList.containsAddress, ha])
      rw [this]; rfl)
  refine ⟨this.1, this.2.trans ?_⟩
  simp only [v1, v2]; rfl

theorem trans_alSlot {s : SDB} (h : Inv H K S W s) {a : Addr} {k : Key} (ha : s.al.addresses a ≠ none)
    (hc : (s.al.contains a k).2 = false) :
    Trans H K S W s { (s.append (.alSlot a k)) with al := (s.al.addSlot a k).1 } ∧
    SDB.view H K { (s.append (.alSlot a k)) with al := (s.al.addSlot a k).1 } =
      { s.view H K with warm := upd (s.view H K).warm a true,
                        warmSlot := upd (s.view H K).warmSlot a (upd ((s.view H K).warmSlot a) k true) } := by
  have hwf : s.al.WF := by rw [h.al]; exact rebuild_wf _
  obtain ⟨v1, v2⟩ := AccessList.addSlot_view hwf a k
  have hrb : rebuild (.alSlot a k :: s.journal) = (s.al.addSlot a k).1 := by rw [h.al]; rfl
  have := trans_skip (s' := { (s.append (.alSlot a k)) with al := (s.al.addSlot a k).1 }) h (e := .alSlot a k) rfl (fun _ => rfl)
    (by show (rebuild s.journal).addresses a ≠ none ∧ _; rw [← h.al]; exact ⟨ha, hc⟩) rfl rfl rfl hrb.symm rfl rfl rfl (by
      have v3 := congrFun v2 a
      rw [upd_same] at v3
      simp only [v1, v2, v3, vundo, upd_upd, upd_same]
      congr 1
      have e1 : upd s.al.containsAddress a true = s.al.containsAddress := upd_self (by
        cases h' : s.al.addresses a with
        | none => exact absurd h' ha
        | some i => simp [AccessList.containsAddress, h'])
      have e2 : upd (fun k => (s.al.contains a k).2) k false = fun k => (s.al.contains a k).2 := upd_self hc
      rw [e1, e2, upd_self (f := fun b k => (s.al.contains b k).2) rfl]; rfl)
  refine ⟨this.1, this.2.trans ?_⟩
  simp only [v1, v2]; rfl

theorem createObject_some {s : SDB} {a : Addr} {p : Obj} (h : s.lookup H K a = some p) :
    s.createObject H K a = (((s.load H K a).append (.reset a p)).put a (newObj H), some p) := by
  unfold SDB.createObject; simp only [h]

theorem trans_reset {s : SDB} (hW : W → WF H K S) (h : Inv H K S W s) {a : Addr} {p o : Obj} (hl : s.lookup H K a = some p)
    (ho : ObjOK H K S W a o) :
    Trans H K S W s ((s.append (.reset a p)).put a o) ∧
    ((s.append (.reset a p)).put a o).view H K = { s.view H K with
        accts := upd (s.view H K).accts a (some (objView H K a o)), recreated := upd (s.view H K).recreated a true } := by
  have hp := h.lookup hW hl
  have hv : ((s.append (.reset a p)).put a o).view H K = { s.view H K with
        accts := upd (s.view H K).accts a (some (objView H K a o)), recreated := upd (s.view H K).recreated a true } := by
    rw [view_put, view_append]
    unfold View.marks SDB.view
    simp only [View.marks, View.mk.injEq, true_and]
    constructor
    · funext b; simp [Entry.dirtied]
    · funext b
      by_cases e : b = a
      · subst e; simp [upd_same, Entry.isReset]
      · rw [upd_other _ _ e]; simp [Entry.isReset, Ne.symm e]
  refine ⟨Trans.one (v := { ((s.append (.reset a p)).put a o).view H K with accts := (s.view H K).accts })
    ?_ rfl ?_ ?_ rfl rfl rfl, hv⟩
  · have : Inv H K S W (s.append (.reset a p)) := h.append_skip (e := .reset a p) rfl hp rfl rfl rfl h.al
    exact this.put ho
  · rw [hv]
    simp only [vundo, upd_upd]
    rw [upd_self (by rw [accts_view, hl]; rfl)]
  · rfl

theorem step_sim (hW : W → WF H K S) {s : SDB} (h : Inv H K S W s) (op : Op) (hop : W → op.codeIn S)
    (h1 : op ≠ .snapshot) (h2 : ∀ id, op ≠ .revert id) :
    Sim H K S W s (s.step H K op) ((s.view H K).step H K s.logIndex op) := by
  cases op with
  | snapshot => exact absurd rfl h1
  | revert id => exact absurd rfl (h2 id)
  | exist a => exact Sim.load hW h a (by rw [accts_view]; cases s.lookup H K a <;> rfl)
  | empty a => exact Sim.load hW h a (by rw [accts_view]; cases s.lookup H K a <;> rfl)
  | getBalance a => exact Sim.load hW h a (by rw [accts_view]; cases s.lookup H K a <;> rfl)
  | getNonce a => exact Sim.load hW h a (by rw [accts_view]; cases s.lookup H K a <;> rfl)
  | getCodeHash a => exact Sim.load hW h a (by rw [accts_view]; cases s.lookup H K a <;> rfl)
  | hasSuicided a => exact Sim.load hW h a (by rw [accts_view]; cases s.lookup H K a <;> rfl)
  | getCode a =>
    simp only [SDB.step, View.step, accts_view]
    cases hl : s.lookup H K a with
    | none => exact Sim.load hW h a rfl
    | some o =>
      obtain ⟨t1, t2⟩ := trans_cache h hl ((h.lookup hW hl).loadCode hW) (objView_loadCode a o)
      exact .inr ⟨_, _, rfl, by rw [t2]; rfl, t1⟩
  | getState a k =>
    simp only [SDB.step, View.step, accts_view]
    cases hl : s.lookup H K a with
    | none => exact Sim.load hW h a rfl
    | some o =>
      obtain ⟨t1, t2⟩ := trans_cache h hl ((h.lookup hW hl).touchState k) (objView_touchState a o k)
      exact .inr ⟨_, _, rfl, by rw [t2]; rfl, t1⟩
  | getCommittedState a k =>
    simp only [SDB.step, View.step, accts_view]
    cases hl : s.lookup H K a with
    | none => exact Sim.load hW h a rfl
    | some o =>
      obtain ⟨t1, t2⟩ := trans_cache h hl ((h.lookup hW hl).loadState k) (objView_loadState a o k)
      refine .inr ⟨_, _, rfl, ?_, t1⟩
      rw [t2]
      have : o.committed K a k = K.state a k := by
        unfold Obj.committed
        cases ho : o.origin k with
        | none => rfl
        | some w => exact (h.lookup hW hl).origin k w ho
      rw [this]; rfl
  | getRefund => exact Sim.ok (Trans.refl h)
  | getLogs => exact Sim.ok (Trans.refl h)
  | addressInAccessList a => exact Sim.ok (Trans.refl h)
  | slotInAccessList a k =>
    refine .inr ⟨s, _, rfl, ?_, Trans.refl h⟩
    simp only [View.step]
    have : (s.al.contains a k).1 = s.al.containsAddress a := by
      unfold AccessList.contains AccessList.containsAddress
      split
      · rename_i h; simp [h]
      · rename_i h; split <;> simp [h]
    rw [this]; rfl
  | createAccount a =>
    simp only [SDB.step, View.step, accts_view]
    cases hl : s.lookup H K a with
    | none =>
      obtain ⟨t1, t2, t3⟩ := trans_create hW h hl
      have : s.createObject H K a = ((s.createObject H K a).1, none) := by rw [← t3]
      rw [this]
      exact .inr ⟨_, _, rfl, by rw [t2]; rfl, t1⟩
    | some p =>
      rw [createObject_some hl]
      simp only [Option.map_some]
      have hl' : (s.load H K a).lookup H K a = some p := by rw [lookup_load, hl]
      have hk : ObjOK H K S W a { newObj H with balance := p.balance } := by
        have hn : ObjOK H K S W a (newObj H) := ObjOK.new
        exact ⟨hn.origin, hn.code⟩
      obtain ⟨t1, t2⟩ := trans_reset hW (h.load hW a) hl' hk
      have e : ((((s.load H K a).append (.reset a p)).put a (newObj H)).put a { newObj H with balance := p.balance }) =
          ((s.load H K a).append (.reset a p)).put a { newObj H with balance := p.balance } := by
        simp only [SDB.put, upd_upd]
      rw [e]
      refine .inr ⟨_, _, rfl, ?_, (trans_load hW h a).trans t1⟩
      rw [t2, view_load]
      have : objView H K a { newObj H with balance := p.balance } = { freshAcct H K a with balance := p.balance } := by
        simp only [objView, newObj, freshAcct, Obj.codeVal, Acct.mk.injEq, true_and]
        refine ⟨by simp, ?_, trivial⟩
        funext k; simp [Obj.stateVal, Obj.committed]
      rw [this]; rfl
  | addBalance a n =>
    simp only [SDB.step, View.step]
    obtain ⟨t1, t2, t3, t4⟩ := trans_getOrNew hW h a
    by_cases hn : n = 0
    · simp only [hn, if_true]
      exact .inr ⟨_, _, rfl, by rw [t2], t1⟩
    · simp only [hn, if_false]
      have hok := t1.inv.lookup hW t3
      obtain ⟨u1, u2⟩ := trans_set t1.inv (e := .balance a (s.getOrNew H K a).2.balance)
        (o' := { (s.getOrNew H K a).2 with balance := (s.getOrNew H K a).2.balance + n }) rfl (fun _ => rfl) trivial rfl t3
        ⟨hok.origin, hok.code⟩ (fun v hv => by simp only [vundo, hv, Option.map_some]; rfl)
      refine .inr ⟨_, _, rfl, ?_, t1.trans u1⟩
      rw [u2, t2, ← t4]; rfl
  | subBalance a n =>
    simp only [SDB.step, View.step]
    obtain ⟨t1, t2, t3, t4⟩ := trans_getOrNew hW h a
    by_cases hn : n = 0
    · simp only [hn, if_true]
      exact .inr ⟨_, _, rfl, by rw [t2], t1⟩
    · simp only [hn, if_false]
      have hok := t1.inv.lookup hW t3
      obtain ⟨u1, u2⟩ := trans_set t1.inv (e := .balance a (s.getOrNew H K a).2.balance)
        (o' := { (s.getOrNew H K a).2 with balance := (s.getOrNew H K a).2.balance - n }) rfl (fun _ => rfl) trivial rfl t3
        ⟨hok.origin, hok.code⟩ (fun v hv => by simp only [vundo, hv, Option.map_some]; rfl)
      refine .inr ⟨_, _, rfl, ?_, t1.trans u1⟩
      rw [u2, t2, ← t4]; rfl
  | setNonce a n =>
    simp only [SDB.step, View.step]
    obtain ⟨t1, t2, t3, t4⟩ := trans_getOrNew hW h a
    have hok := t1.inv.lookup hW t3
    obtain ⟨u1, u2⟩ := trans_set t1.inv (e := .nonce a (s.getOrNew H K a).2.nonce)
      (o' := { (s.getOrNew H K a).2 with nonce := n }) rfl (fun _ => rfl) trivial rfl t3
      ⟨hok.origin, hok.code⟩ (fun v hv => by simp only [vundo, hv, Option.map_some]; rfl)
    refine .inr ⟨_, _, rfl, ?_, t1.trans u1⟩
    rw [u2, t2, ← t4]; rfl
  | setCode a c =>
    simp only [SDB.step, View.step]
    obtain ⟨t1, t2, t3, t4⟩ := trans_getOrNew hW h a
    have hok := t1.inv.lookup hW t3
    have hlc := hok.loadCode hW
    have hst : ∀ o : Obj, (o.loadCode H K).stateVal K a = o.stateVal K a ∧ (o.loadCode H K).nonce = o.nonce ∧
        (o.loadCode H K).balance = o.balance ∧ (o.loadCode H K).suicided = o.suicided := by
      intro o
      have := objView_loadCode (H := H) (K := K) a o
      unfold objView at this
      simp only [Acct.mk.injEq] at this
      exact ⟨this.2.2.2.2.1, this.1, this.2.1, this.2.2.2.2.2⟩
    obtain ⟨u1, u2⟩ := trans_set t1.inv (e := .code a ((s.getOrNew H K a).2.codeVal H K) (s.getOrNew H K a).2.codeHash)
      (o' := ((s.getOrNew H K a).2.loadCode H K).setCode (H c) (some c)) rfl (fun _ => rfl)
      (fun w => ((hok.code w).val (hW w)).dirty) rfl t3
      ⟨hlc.origin, fun w => ⟨hop w, rfl, .inl rfl⟩⟩
      (fun v hv => by
        simp only [vundo, hv, Option.map_some]
        congr 2
        congr 1
        congr 1
        obtain ⟨g1, g2, g3, g4⟩ := hst (s.getOrNew H K a).2
        unfold objView Obj.setCode
        simp only [Acct.mk.injEq, true_and]
        refine ⟨g2, g3, ?_, g1, g4⟩
        have : ∀ o : Obj, (({ nonce := 0, balance := 0, codeHash := o.codeHash, code := o.codeVal H K } : Obj).codeVal H K) = o.codeVal H K := by
          intro o
          unfold Obj.codeVal
          simp only
          cases ho : o.code with
          | some c => rfl
          | none =>
            simp only
            by_cases hh : o.codeHash = H []
            · simp [hh]
            · simp only [hh, if_false]
              cases K.code o.codeHash <;> rfl
        rw [this])
    refine .inr ⟨_, _, rfl, ?_, t1.trans u1⟩
    rw [u2, t2, ← t4]
    congr 3
    obtain ⟨g1, g2, g3, g4⟩ := hst (s.getOrNew H K a).2
    unfold objView Obj.setCode
    simp only [Acct.mk.injEq, true_and]
    exact ⟨g2.symm, g3.symm, rfl, g1.symm, g4.symm⟩
  | setState a k w =>
    simp only [SDB.step, View.step]
    obtain ⟨t1, t2, t3, t4⟩ := trans_getOrNew hW h a
    have hok := t1.inv.lookup hW t3
    have hval : ((s.view H K).orNew H K a).2.storage k = (s.getOrNew H K a).2.stateVal K a k := by rw [← t4]; rfl
    rw [hval]
    by_cases hw : (s.getOrNew H K a).2.stateVal K a k = w
    · simp only [hw, if_true]
      obtain ⟨u1, u2⟩ := trans_cache t1.inv t3 (hok.touchState k) (objView_touchState a _ k)
      exact .inr ⟨_, _, rfl, by rw [u2, t2], t1.trans u1⟩
    · simp only [hw, if_false]
      have hts := hok.touchState k
      have hg : ∀ o : Obj, ∀ w', objView H K a ((o.touchState K a k).setState k w') =
          { objView H K a o with storage := upd (o.stateVal K a) k w' } := by
        intro o w'
        have := objView_touchState (H := H) (K := K) a o k
        unfold objView at this
        simp only [Acct.mk.injEq] at this
        obtain ⟨e1, e2, e3, e4, e5, e6⟩ := this
        unfold objView
        simp only [Acct.mk.injEq]
        refine ⟨e1, e2, e3, e4, ?_, e6⟩
        funext k'
        by_cases e : k' = k
        · subst e; simp [upd_same, Obj.stateVal, Obj.setState]
        · rw [upd_other _ _ e, ← e5]
          simp only [Obj.stateVal, Obj.setState, upd_other _ _ e]; rfl
      obtain ⟨u1, u2⟩ := trans_set t1.inv (e := .storage a k ((s.getOrNew H K a).2.stateVal K a k))
        (o' := (((s.getOrNew H K a).2).touchState K a k).setState k w) rfl (fun _ => rfl) trivial rfl t3
        ⟨hts.origin, hts.code⟩
        (fun v hv => by
          simp only [vundo, hv, Option.map_some, hg, upd_upd]
          rw [upd_self (f := (s.getOrNew H K a).2.stateVal K a) rfl]
          rfl)
      refine .inr ⟨_, _, rfl, ?_, t1.trans u1⟩
      rw [u2, t2, hg, ← t4]; rfl
  | suicide a =>
    simp only [SDB.step, View.step, accts_view]
    cases hl : s.lookup H K a with
    | none => exact Sim.load hW h a rfl
    | some o =>
      have hok := h.lookup hW hl
      obtain ⟨u1, u2⟩ := trans_set h (e := .suicide a o.suicided o.balance)
        (o' := { o with suicided := true, balance := 0 }) rfl (fun _ => rfl) trivial rfl hl
        ⟨hok.origin, hok.code⟩ (fun v hv => by simp only [vundo, hv]; rfl)
      exact .inr ⟨_, _, rfl, by rw [u2]; rfl, u1⟩
  | addLog d =>
    obtain ⟨t1, t2⟩ := trans_skip (s' := { (s.append .addLog) with logs := s.logs ++ [⟨d, s.logIndex + s.logs.length⟩] })
      h (e := .addLog) rfl (fun _ => rfl) trivial rfl rfl rfl h.al rfl rfl rfl (by
        simp only [vundo, List.dropLast_concat]; rfl)
    exact .inr ⟨_, _, rfl, by rw [t2]; rfl, t1⟩
  | addRefund g =>
    obtain ⟨t1, t2⟩ := trans_skip (s' := { (s.append (.refund s.refund)) with refund := (s.refund + g) % 2 ^ 64 })
      h (e := .refund s.refund) rfl (fun _ => rfl) trivial rfl rfl rfl h.al rfl rfl rfl rfl
    exact .inr ⟨_, _, rfl, by rw [t2]; rfl, t1⟩
  | subRefund g =>
    simp only [SDB.step, View.step]
    rw [show (s.view H K).refund = s.refund from rfl]
    by_cases hg : g > s.refund
    · simp only [hg, if_true]; exact .inl ⟨rfl, rfl⟩
    · simp only [hg, if_false]
      obtain ⟨t1, t2⟩ := trans_skip (s' := { (s.append (.refund s.refund)) with refund := s.refund - g })
        h (e := .refund s.refund) rfl (fun _ => rfl) trivial rfl rfl rfl h.al rfl rfl rfl rfl
      exact .inr ⟨_, _, rfl, by rw [t2]; rfl, t1⟩
  | addAddress a =>
    simp only [SDB.step, View.step]
    cases ha : s.al.addresses a with
    | some i =>
      have e : s.al.addAddress a = (s.al, false) := by unfold AccessList.addAddress; rw [ha]
      rw [e]
      refine .inr ⟨s, _, rfl, ?_, Trans.refl h⟩
      have : upd (s.view H K).warm a true = (s.view H K).warm := upd_self (by
        show s.al.containsAddress a = true
        simp [AccessList.containsAddress, ha])
      rw [this]
    | none =>
      have e : s.al.addAddress a = ((s.al.addAddress a).1, true) := by unfold AccessList.addAddress; rw [ha]
      rw [e]
      obtain ⟨t1, t2⟩ := trans_alAddr h ha
      exact .inr ⟨_, _, rfl, by rw [t2], t1⟩
  | addSlot a k =>
    obtain ⟨f1, f2, f3, f4⟩ := AccessList.addSlot_flags (al := s.al) (a := a) (k := k)
    simp only [SDB.step, View.step, f1, f2]
    have hwf : s.al.WF := by rw [h.al]; exact rebuild_wf _
    cases ha : s.al.addresses a with
    | none =>
      have hc : (s.al.contains a k).2 = false := by simp [AccessList.contains, ha]
      obtain ⟨t1, t2⟩ := trans_alAddr h ha
      have ha' : (s.al.addAddress a).1.addresses a ≠ none := by
        unfold AccessList.addAddress; rw [ha]; simp [upd_same]
      have hc' : ((s.al.addAddress a).1.contains a k).2 = false := by
        have := congrFun (congrFun (AccessList.addAddress_view (al := s.al) a).2 a) k
        rw [this, hc]
      obtain ⟨u1, u2⟩ := trans_alSlot t1.inv ha' hc'
      refine .inr ⟨_, .done, ?_, ?_, t1.trans u1⟩
      · simp only [hc, Option.isNone_none, Bool.not_false, if_true, f4 ha]; rfl
      · rw [u2, t2]
        simp only [upd_upd]
    | some i =>
      cases hc : (s.al.contains a k).2 with
      | true =>
        refine .inr ⟨s, .done, ?_, ?_, Trans.refl h⟩
        · simp only [Option.isNone_some, Bool.not_true, Bool.false_eq_true, if_false, f3 hc]
        · congr 2
          have e1 : upd (s.view H K).warm a true = (s.view H K).warm := upd_self (by
            show s.al.containsAddress a = true
            simp [AccessList.containsAddress, ha])
          have e2 : upd ((s.view H K).warmSlot a) k true = (s.view H K).warmSlot a := upd_self hc
          rw [e1, e2, upd_self rfl]
      | false =>
        obtain ⟨u1, u2⟩ := trans_alSlot h (by rw [ha]; simp) hc
        refine .inr ⟨_, .done, ?_, ?_, u1⟩
        · simp only [Option.isNone_some, Bool.not_false, Bool.false_eq_true, if_false, if_true]
        · rw [u2]

/-! ### Backward -/

/-- The state after undoing the newest entry `e`. -/
def SDB.pop (s : SDB) (e : Entry) (j : List Entry) : SDB :=
  { s with
    journal := j
    dirties := match e.dirtied with
      | some a => unbump a s.dirties
      | none => s.dirties }

theorem Inv.pop {s s' : SDB} (h : Inv H K S W s) {e : Entry} {j : List Entry} (hj : s.journal = e :: j)
    (ho : ∀ a o, s'.objs a = some o → ObjOK H K S W a o) (hl : ∀ a, 0 < touches j a → s'.objs a ≠ none)
    (hd : s'.dirties = s.dirties) (hal : s'.al = rebuild j) : Inv H K S W (s'.pop e j) := by
  refine ⟨ho, ?_, hal, ?_, hl⟩
  · have := h.journal; rw [hj] at this; exact this.2
  · have hd' := h.dirties
    rw [hj] at hd'
    show DOK (match e.dirtied with | some a => unbump a s'.dirties | none => s'.dirties) j
    rw [hd]
    cases he : e.dirtied with
    | some a => exact hd'.unbump he
    | none => exact hd'.unskip he

theorem touches_le {e : Entry} {j : List Entry} {a : Addr} (h : 0 < touches j a) : 0 < touches (e :: j) a := by
  by_cases he : e.dirtied = some a
  · rw [touches_cons_same he]; omega
  · rw [touches_cons_other he]; exact h

theorem view_pop (s : SDB) (e : Entry) (j : List Entry) : (s.pop e j).view H K = (s.view H K).marks j := rfl

/-- The parts that undoing does not touch. -/
structure Keep (s s' : SDB) : Prop where
  revs : s'.revs = s.revs
  next : s'.nextRev = s.nextRev
  li : s'.logIndex = s.logIndex

/-- The result of undoing one entry. -/
def Undone (H : Bytes → Hash) (K : Store) (S : Bytes → Prop) (W : Prop) (s : SDB) (e : Entry) (j : List Entry) (v : View) : Prop :=
  ∃ s', s.undo H K e = some s' ∧ (s'.pop e j).view H K = v.marks j ∧ Inv H K S W (s'.pop e j) ∧ Keep s (s'.pop e j)

theorem undone_put {s : SDB} (h : Inv H K S W s) {e : Entry} {j : List Entry} (hj : s.journal = e :: j)
    (hal : rebuild (e :: j) = rebuild j) {a : Addr} {o : Obj} (hs : s.undo H K e = some (s.put a o)) (ho : ObjOK H K S W a o)
    {v : View} (hv : v.accts = upd (s.view H K).accts a (some (objView H K a o)) ∧ v.refund = s.refund ∧ v.logs = s.logs ∧
      v.warm = (s.view H K).warm ∧ v.warmSlot = (s.view H K).warmSlot) : Undone H K S W s e j v := by
  refine ⟨s.put a o, hs, ?_, ?_, ⟨rfl, rfl, rfl⟩⟩
  · rw [view_pop, view_put]
    obtain ⟨h1, h2, h3, h4, h5⟩ := hv
    unfold View.marks
    rw [h1, h2, h3, h4, h5]; rfl
  · refine h.pop hj ?_ ?_ rfl ?_
    · intro b o' hb
      by_cases e : b = a
      · subst e; simp only [SDB.put, upd_same, Option.some.injEq] at hb; exact hb ▸ ho
      · simp only [SDB.put, upd_other _ _ e] at hb; exact h.objs b o' hb
    · intro b hb
      by_cases e : b = a
      · subst e; simp [SDB.put, upd_same]
      · simp only [SDB.put, upd_other _ _ e]; exact h.live b (by rw [hj]; exact touches_le hb)
    · show s.al = _; rw [h.al, hj, hal]

theorem undone_skip {s s' : SDB} (h : Inv H K S W s) {e : Entry} {j : List Entry} (hj : s.journal = e :: j)
    (hs : s.undo H K e = some s') (ho : s'.objs = s.objs) (hd : s'.dirties = s.dirties) (hal : s'.al = rebuild j) (hk : Keep s s')
    {v : View} (hv : v.accts = (s.view H K).accts ∧ v.refund = s'.refund ∧ v.logs = s'.logs ∧
      v.warm = (fun a => s'.al.containsAddress a) ∧ v.warmSlot = (fun a k => (s'.al.contains a k).2)) : Undone H K S W s e j v := by
  refine ⟨s', hs, ?_, ?_, ⟨hk.revs, hk.next, hk.li⟩⟩
  · rw [view_pop]
    obtain ⟨h1, h2, h3, h4, h5⟩ := hv
    have hl : ∀ a, s'.lookup H K a = s.lookup H K a := by intro a; unfold SDB.lookup; rw [ho]
    unfold View.marks
    rw [h1, h2, h3, h4, h5]
    simp only [SDB.view, View.marks, hl]
  · refine h.pop hj (by rw [ho]; exact h.objs) ?_ hd hal
    intro b hb; rw [ho]; exact h.live b (by rw [hj]; exact touches_le hb)

theorem undo_sim (hW : W → WF H K S) {s : SDB} (h : Inv H K S W s) {e : Entry} {j : List Entry} (hj : s.journal = e :: j)
    {v : View} (hv : vundo H K (s.view H K) e = some v) : Undone H K S W s e j v := by
  have hJ := h.journal
  rw [hj] at hJ
  have hal0 : s.al = rebuild (e :: j) := by rw [h.al, hj]
  cases e with
  | create a =>
    simp only [vundo, Option.some.injEq] at hv
    subst hv
    refine ⟨_, rfl, ?_, ?_, ⟨rfl, rfl, rfl⟩⟩
    · rw [view_pop]
      unfold SDB.view View.marks
      simp only [View.mk.injEq, true_and, and_true]
      funext b
      have hs : K.getObj H a = none := by unfold Store.getObj; rw [hJ.1.1]; rfl
      by_cases e : b = a
      · subst e; simp [SDB.lookup, upd_same, hs]
      · rw [upd_other _ _ e]; simp [SDB.lookup, upd_other _ _ e]
    · refine h.pop hj ?_ ?_ rfl hal0
      · intro b o hb
        by_cases e : b = a
        · subst e; simp [upd_same] at hb
        · simp only [upd_other _ _ e] at hb; exact h.objs b o hb
      · intro b hb
        by_cases e : b = a
        · subst e; have := hJ.1.2; omega
        · simp only [upd_other _ _ e]; exact h.live b (by rw [hj]; exact touches_le hb)
  | reset a p =>
    simp only [vundo, Option.some.injEq] at hv
    subst hv
    exact undone_put h hj rfl rfl hJ.1 ⟨rfl, rfl, rfl, rfl, rfl⟩
  | suicide a f b =>
    simp only [vundo, accts_view] at hv
    cases hl : s.lookup H K a with
    | none =>
      simp only [hl, Option.map_none, Option.some.injEq] at hv
      subst hv
      exact undone_skip h hj (by simp only [SDB.undo, hl]) rfl rfl hal0 ⟨rfl, rfl, rfl⟩ ⟨rfl, rfl, rfl, rfl, rfl⟩
    | some o =>
      simp only [hl, Option.map_some, Option.some.injEq] at hv
      subst hv
      have ho := h.lookup hW hl
      exact undone_put (a := a) (o := { o with suicided := f, balance := b }) h hj rfl (by simp only [SDB.undo, hl])
        ⟨ho.origin, ho.code⟩ ⟨rfl, rfl, rfl, rfl, rfl⟩
  | balance a b =>
    simp only [vundo, accts_view] at hv
    cases hl : s.lookup H K a with
    | none => rw [hl] at hv; simp at hv
    | some o =>
      simp only [hl, Option.map_some, Option.some.injEq] at hv
      subst hv
      have ho := h.lookup hW hl
      exact undone_put (a := a) (o := { o with balance := b }) h hj rfl (by simp only [SDB.undo, hl, Option.map_some])
        ⟨ho.origin, ho.code⟩ ⟨rfl, rfl, rfl, rfl, rfl⟩
  | nonce a b =>
    simp only [vundo, accts_view] at hv
    cases hl : s.lookup H K a with
    | none => rw [hl] at hv; simp at hv
    | some o =>
      simp only [hl, Option.map_some, Option.some.injEq] at hv
      subst hv
      have ho := h.lookup hW hl
      exact undone_put (a := a) (o := { o with nonce := b }) h hj rfl (by simp only [SDB.undo, hl, Option.map_some])
        ⟨ho.origin, ho.code⟩ ⟨rfl, rfl, rfl, rfl, rfl⟩
  | code a c hh =>
    simp only [vundo, accts_view] at hv
    cases hl : s.lookup H K a with
    | none => rw [hl] at hv; simp at hv
    | some o =>
      simp only [hl, Option.map_some, Option.some.injEq] at hv
      subst hv
      have ho := h.lookup hW hl
      exact undone_put (a := a) (o := o.setCode hh c) h hj rfl (by simp only [SDB.undo, hl, Option.map_some])
        ⟨ho.origin, hJ.1⟩ ⟨rfl, rfl, rfl, rfl, rfl⟩
  | storage a k w =>
    simp only [vundo, accts_view] at hv
    cases hl : s.lookup H K a with
    | none => rw [hl] at hv; simp at hv
    | some o =>
      simp only [hl, Option.map_some, Option.some.injEq] at hv
      subst hv
      have ho := h.lookup hW hl
      refine undone_put (a := a) (o := o.setState k w) h hj rfl (by simp only [SDB.undo, hl, Option.map_some])
        ⟨ho.origin, ho.code⟩ ⟨?_, rfl, rfl, rfl, rfl⟩
      have : objView H K a (o.setState k w) = { objView H K a o with storage := upd (o.stateVal K a) k w } := by
        unfold objView
        simp only [Acct.mk.injEq]
        refine ⟨rfl, rfl, rfl, rfl, ?_, rfl⟩
        funext k'
        by_cases e : k' = k
        · subst e; simp [upd_same, Obj.stateVal, Obj.setState]
        · rw [upd_other _ _ e]
          simp only [Obj.stateVal, Obj.setState, upd_other _ _ e]; rfl
      rw [this]; rfl
  | refund p =>
    simp only [vundo, Option.some.injEq] at hv
    subst hv
    exact undone_skip h hj rfl rfl rfl hal0 ⟨rfl, rfl, rfl⟩ ⟨rfl, rfl, rfl, rfl, rfl⟩
  | addLog =>
    simp only [vundo, Option.some.injEq] at hv
    subst hv
    exact undone_skip h hj rfl rfl rfl hal0 ⟨rfl, rfl, rfl⟩ ⟨rfl, rfl, rfl, rfl, rfl⟩
  | alAddr a =>
    simp only [vundo, Option.some.injEq] at hv
    subst hv
    have he : s.al.deleteAddress a = rebuild j := by
      rw [hal0]; exact AccessList.deleteAddress_addAddress hJ.1
    refine undone_skip h hj rfl rfl rfl he ⟨rfl, rfl, rfl⟩ ⟨rfl, rfl, rfl, ?_, ?_⟩
    · obtain ⟨v1, v2⟩ := AccessList.addAddress_view (al := rebuild j) a
      show upd (fun b => s.al.containsAddress b) a false = fun b => (s.al.deleteAddress a).containsAddress b
      rw [he, hal0]
      show upd (fun b => ((rebuild j).addAddress a).1.containsAddress b) a false = _
      rw [v1, upd_upd]
      exact upd_self (by simp only [AccessList.containsAddress]; rw [hJ.1]; rfl)
    · obtain ⟨v1, v2⟩ := AccessList.addAddress_view (al := rebuild j) a
      show (fun b k => (s.al.contains b k).2) = fun b k => ((s.al.deleteAddress a).contains b k).2
      rw [he, hal0]
      exact v2
  | alSlot a k =>
    simp only [vundo, Option.some.injEq] at hv
    subst hv
    have he : s.al.deleteSlot a k = some (rebuild j) := by
      rw [hal0]; exact AccessList.deleteSlot_addSlot (rebuild_wf j) hJ.1.1 hJ.1.2
    obtain ⟨v1, v2⟩ := AccessList.addSlot_view (rebuild_wf j) a k
    refine undone_skip (s' := { s with al := rebuild j }) h hj (by simp only [SDB.undo, he, Option.map_some]) rfl rfl rfl
      ⟨rfl, rfl, rfl⟩ ⟨rfl, rfl, rfl, ?_, ?_⟩
    · show (fun b => s.al.containsAddress b) = _
      rw [hal0]
      refine v1.trans (upd_self ?_)
      cases h' : (rebuild j).addresses a with
      | none => exact absurd h' hJ.1.1
      | some i => simp [AccessList.containsAddress, h']
    · show upd (fun b k => (s.al.contains b k).2) a (upd (fun k => (s.al.contains a k).2) k false) = _
      rw [hal0]
      have v3 := congrFun v2 a
      rw [upd_same] at v3
      show upd (fun b k' => (((rebuild j).addSlot a k).1.contains b k').2) a (upd (fun k' => (((rebuild j).addSlot a k).1.contains a k').2) k false) = _
      rw [v3, v2, upd_upd, upd_upd]
      rw [upd_self (f := fun k => ((rebuild j).contains a k).2) hJ.1.2]
      exact upd_self rfl

/-- Undoing the newest `n` entries. -/
theorem undoN_sim (hW : W → WF H K S) (n : Nat) {s : SDB} (h : Inv H K S W s) {v : View}
    (hv : vundoN H K s.journal (s.view H K) n = some v) :
    ∃ s', s.undoN H K n = some s' ∧ s'.view H K = v ∧ Inv H K S W s' ∧ Keep s s' ∧ s'.journal = s.journal.drop n := by
  induction n generalizing s with
  | zero => simp only [vundoN, Option.some.injEq] at hv; exact ⟨s, rfl, hv, h, ⟨rfl, rfl, rfl⟩, by simp⟩
  | succ n ih =>
    cases hj : s.journal with
    | nil =>
      rw [hj] at hv
      simp only [vundoN, Option.some.injEq] at hv
      exact ⟨s, by simp only [SDB.undoN, hj], hv, h, ⟨rfl, rfl, rfl⟩, by simp [hj]⟩
    | cons e j =>
      rw [hj] at hv
      simp only [vundoN] at hv
      cases hu : vundo H K (s.view H K) e with
      | none => rw [hu] at hv; simp at hv
      | some v' =>
        rw [hu, Option.bind_some] at hv
        obtain ⟨s', h1, h2, h3, h4⟩ := undo_sim hW h hj hu
        rw [← h2] at hv
        obtain ⟨s'', g1, g2, g3, g4, g5⟩ := ih (s := s'.pop e j) h3 hv
        refine ⟨s'', ?_, g2, g3, ⟨g4.revs.trans h4.revs, g4.next.trans h4.next, g4.li.trans h4.li⟩, g5⟩
        simp only [SDB.undoN, hj, h1, Option.bind_some]
        exact g1

end EVM
