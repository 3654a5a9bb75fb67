import Verif.EVM.StateDBLemmas
/-!
# EVM state: the state represents a view, and undoing the journal gives back earlier views
-/
namespace EVM

section
variable (H : Bytes → Hash) (K : Store)

/-- An object as seen through the getters. -/
def objView (a : Addr) (o : Obj) : Acct :=
  { nonce := o.nonce, balance := o.balance, codeHash := o.codeHash, code := (o.codeVal H K).getD [],
    storage := o.stateVal K a, suicided := o.suicided }

/-- Is this the replacement of account `a`? -/
def Entry.isReset (a : Addr) : Entry → Bool
  | .reset b _ => b == a
  | _ => false

/-- Set the marks of a view from a journal. -/
def View.marks (v : View) (j : List Entry) : View :=
  { v with touched := fun a => j.any (fun e => e.dirtied == some a), recreated := fun a => j.any (Entry.isReset a) }

/-- The view a state represents. -/
def SDB.view (s : SDB) : View :=
  View.marks {
    accts := fun a => (s.lookup H K a).map (objView H K a)
    refund := s.refund
    logs := s.logs
    warm := fun a => s.al.containsAddress a
    warmSlot := fun a k => (s.al.contains a k).2
    touched := fun _ => false
    recreated := fun _ => false } s.journal

/-- Undoing one entry on the level of views (marks aside). -/
def vundo (v : View) : Entry → Option View
  | .create a => some { v with accts := upd v.accts a none }
  | .reset a p => some { v with accts := upd v.accts a (some (objView H K a p)) }
  | .suicide a f b =>
    match v.accts a with
    | none => some v
    | some o => some { v with accts := upd v.accts a (some { o with suicided := f, balance := b }) }
  | .balance a b => (v.accts a).map fun o => { v with accts := upd v.accts a (some { o with balance := b }) }
  | .nonce a n => (v.accts a).map fun o => { v with accts := upd v.accts a (some { o with nonce := n }) }
  | .code a c h => (v.accts a).map fun o => { v with accts := upd v.accts a (some { o with
      codeHash := h, code := (({ nonce := 0, balance := 0, codeHash := h, code := c } : Obj).codeVal H K).getD [] }) }
  | .storage a k w => (v.accts a).map fun o => { v with accts := upd v.accts a (some { o with storage := upd o.storage k w }) }
  | .refund p => some { v with refund := p }
  | .addLog => some { v with logs := v.logs.dropLast }
  | .alAddr a => some { v with warm := upd v.warm a false }
  | .alSlot a k => some { v with warmSlot := upd v.warmSlot a (upd (v.warmSlot a) k false) }

/-- Undoing the newest `n` entries. -/
def vundoN (j : List Entry) (v : View) : Nat → Option View
  | 0 => some v
  | n + 1 =>
    match j with
    | [] => some v
    | e :: j => (vundo H K v e).bind fun v => vundoN j (v.marks j) n

/-- The access list the journal describes. -/
def rebuild : List Entry → AccessList
  | [] => {}
  | .alAddr a :: j => ((rebuild j).addAddress a).1
  | .alSlot a k :: j => ((rebuild j).addSlot a k).1
  | _ :: j => rebuild j

/-- Code and code hash of an object belong together, and what is not in the store will be written. -/
def CodeOK (S : Bytes → Prop) (c : Option Bytes) (h : Hash) (d : Bool) : Prop :=
  match c with
  | some c => S c ∧ H c = h ∧ (d = true ∨ K.code h = some c)
  | none => h = H [] ∨ ∃ c, K.code h = some c

/-- Caches agree with the store. -/
structure ObjOK (S : Bytes → Prop) (W : Prop) (a : Addr) (o : Obj) : Prop where
  origin : ∀ k w, o.origin k = some w → w = K.state a k
  code : W → CodeOK H K S o.code o.codeHash o.dirtyCode

/-- Side conditions of an entry in front of the journal `j`. -/
def EntryOK (S : Bytes → Prop) (W : Prop) (j : List Entry) : Entry → Prop
  | .create a => K.seq a = none ∧ touches j a = 0
  | .reset a p => ObjOK H K S W a p
  | .code _ c h => W → CodeOK H K S c h true
  | .alAddr a => (rebuild j).addresses a = none
  | .alSlot a k => (rebuild j).addresses a ≠ none ∧ ((rebuild j).contains a k).2 = false
  | _ => True

/-- Every entry satisfies its side conditions. -/
def JOK (S : Bytes → Prop) (W : Prop) : List Entry → Prop
  | [] => True
  | e :: j => EntryOK H K S W j e ∧ JOK S W j

/-- The invariant. -/
structure Inv (S : Bytes → Prop) (W : Prop) (s : SDB) : Prop where
  objs : ∀ a o, s.objs a = some o → ObjOK H K S W a o
  journal : JOK H K S W s.journal
  al : s.al = rebuild s.journal
  dirties : DOK s.dirties s.journal
  live : ∀ a, 0 < touches s.journal a → s.objs a ≠ none

end

variable {H : Bytes → Hash} {K : Store} {S : Bytes → Prop} {W : Prop}

/-! ### Basic facts -/

theorem View.marks_marks (v : View) (j j') : (v.marks j).marks j' = v.marks j' := rfl

theorem lookup_load (s : SDB) (a b : Addr) : (s.load H K a).lookup H K b = s.lookup H K b := by
  unfold SDB.load
  split
  · rfl
  · rename_i h
    unfold SDB.lookup
    by_cases e : b = a
    · subst e; simp only [upd_same, h]
      cases K.getObj H b <;> rfl
    · simp only [upd_other _ _ e]

theorem lookup_put (s : SDB) (a : Addr) (o : Obj) (b : Addr) :
    (s.put a o).lookup H K b = if b = a then some o else s.lookup H K b := by
  unfold SDB.lookup SDB.put
  by_cases e : b = a
  · subst e; simp [upd_same]
  · simp [upd_other _ _ e, e]

theorem lookup_append (s : SDB) (e : Entry) (b : Addr) : (s.append e).lookup H K b = s.lookup H K b := rfl

theorem accts_put (s : SDB) (a : Addr) (o : Obj) :
    (fun b => ((s.put a o).lookup H K b).map (objView H K b)) =
      upd (fun b => (s.lookup H K b).map (objView H K b)) a (some (objView H K a o)) := by
  funext b
  rw [lookup_put]
  by_cases e : b = a
  · subst e; simp [upd_same]
  · simp [upd_other _ _ e, e]

theorem view_put (s : SDB) (a : Addr) (o : Obj) :
    (s.put a o).view H K = { s.view H K with accts := upd (s.view H K).accts a (some (objView H K a o)) } := by
  unfold SDB.view
  rw [accts_put]
  rfl

theorem view_load (s : SDB) (a : Addr) : (s.load H K a).view H K = s.view H K := by
  unfold SDB.view
  have : (fun b => ((s.load H K a).lookup H K b).map (objView H K b)) = fun b => (s.lookup H K b).map (objView H K b) := by
    funext b; rw [lookup_load]
  rw [this]
  unfold SDB.load; split <;> rfl

theorem view_append (s : SDB) (e : Entry) : (s.append e).view H K = (s.view H K).marks (e :: s.journal) := rfl

theorem accts_view (s : SDB) (a : Addr) : (s.view H K).accts a = (s.lookup H K a).map (objView H K a) := rfl

theorem objView_loadCode (a : Addr) (o : Obj) : objView H K a (o.loadCode H K) = objView H K a o := by
  unfold Obj.loadCode
  split
  · rfl
  · split
    · rfl
    · rename_i h1 h2
      unfold objView
      congr 1
      simp only [Obj.codeVal, h1, if_neg h2]
      cases K.code o.codeHash <;> rfl

theorem objView_loadState (a : Addr) (o : Obj) (k : Key) : objView H K a (o.loadState K a k) = objView H K a o := by
  unfold Obj.loadState
  split
  · rfl
  · rename_i h
    unfold objView
    congr 1
    funext k'
    simp only [Obj.stateVal, Obj.committed]
    by_cases e : k' = k
    · subst e; simp [upd_same, h]
    · simp [upd_other _ _ e]

theorem objView_touchState (a : Addr) (o : Obj) (k : Key) : objView H K a (o.touchState K a k) = objView H K a o := by
  unfold Obj.touchState
  split
  · rfl
  · exact objView_loadState a o k

theorem loadCode_code (o : Obj) : (o.loadCode H K).code = o.codeVal H K ∧ (o.loadCode H K).codeHash = o.codeHash ∧
    (o.loadCode H K).dirtyCode = o.dirtyCode ∧ (o.loadCode H K).origin = o.origin := by
  unfold Obj.loadCode Obj.codeVal
  split
  · rename_i h; exact ⟨h, rfl, rfl, rfl⟩
  · rename_i h
    split
    · exact ⟨h, rfl, rfl, rfl⟩
    · exact ⟨rfl, rfl, rfl, rfl⟩

theorem touchState_code (a : Addr) (o : Obj) (k : Key) : (o.touchState K a k).code = o.code ∧
    (o.touchState K a k).codeHash = o.codeHash ∧ (o.touchState K a k).dirtyCode = o.dirtyCode ∧
    (o.touchState K a k).dirty = o.dirty := by
  unfold Obj.touchState Obj.loadState
  split
  · exact ⟨rfl, rfl, rfl, rfl⟩
  · split <;> exact ⟨rfl, rfl, rfl, rfl⟩

/-! ### Objects stay sound -/

theorem ObjOK.loadState {a : Addr} {o : Obj} (h : ObjOK H K S W a o) (k : Key) : ObjOK H K S W a (o.loadState K a k) := by
  unfold Obj.loadState
  split
  · exact h
  · refine ⟨fun k' w hw => ?_, h.code⟩
    by_cases e : k' = k
    · subst e; simp only [upd_same, Option.some.injEq] at hw; exact hw.symm
    · simp only [upd_other _ _ e] at hw; exact h.origin k' w hw

theorem ObjOK.touchState {a : Addr} {o : Obj} (h : ObjOK H K S W a o) (k : Key) : ObjOK H K S W a (o.touchState K a k) := by
  unfold Obj.touchState
  split
  · exact h
  · exact h.loadState k

theorem CodeOK.val (hW : WF H K S) {o : Obj} (h : CodeOK H K S o.code o.codeHash o.dirtyCode) :
    CodeOK H K S (o.codeVal H K) o.codeHash o.dirtyCode := by
  unfold Obj.codeVal
  split
  · rename_i c hc; rw [hc] at h; exact h
  · rename_i hc
    split
    · rename_i he; exact .inl he
    · rename_i he
      rw [hc] at h
      rcases h with h | ⟨c, h⟩
      · exact absurd h he
      · rw [h]; exact ⟨(hW.code _ _ h).2.2, (hW.code _ _ h).2.1, .inr h⟩

theorem CodeOK.dirty {c h d} (hc : CodeOK H K S c h d) : CodeOK H K S c h true := by
  unfold CodeOK at *
  split
  · simp only at hc; exact ⟨hc.1, hc.2.1, .inl rfl⟩
  · exact hc

theorem ObjOK.loadCode (hW : W → WF H K S) {a : Addr} {o : Obj} (h : ObjOK H K S W a o) : ObjOK H K S W a (o.loadCode H K) := by
  obtain ⟨h1, h2, h3, h4⟩ := loadCode_code (H := H) (K := K) o
  refine ⟨by rw [h4]; exact h.origin, fun w => ?_⟩
  rw [h1, h2, h3]
  exact (h.code w).val (hW w)

theorem ObjOK.new {a : Addr} : ObjOK H K S W a (newObj H) :=
  ⟨by intro k w h; simp [newObj] at h, fun _ => .inl rfl⟩

theorem getObj_ok (hW : W → WF H K S) {a : Addr} {o : Obj} (h : K.getObj H a = some o) : ObjOK H K S W a o := by
  unfold Store.getObj at h
  obtain ⟨n, -, rfl⟩ := Option.map_eq_some_iff.1 h
  refine ⟨by intro k w h; simp at h, fun w => ?_⟩
  show (K.codeHash a).getD (H []) = H [] ∨ _
  cases hc : K.codeHash a with
  | none => exact .inl rfl
  | some h => exact .inr ((hW w).hash a h hc)

theorem Inv.lookup (hW : W → WF H K S) {s : SDB} (h : Inv H K S W s) {a : Addr} {o : Obj} (ho : s.lookup H K a = some o) :
    ObjOK H K S W a o := by
  unfold SDB.lookup at ho
  split at ho
  · rename_i o' h'; cases ho; exact h.objs a _ h'
  · exact getObj_ok hW ho

/-! ### Going forward: what each kind of mutation does -/

/-- `s'` comes from `s` by mutations whose journal entries undo them. -/
structure Trans (H : Bytes → Hash) (K : Store) (S : Bytes → Prop) (W : Prop) (s s' : SDB) : Prop where
  inv : Inv H K S W s'
  ext : ∃ es, s'.journal = es ++ s.journal ∧ vundoN H K s'.journal (s'.view H K) es.length = some (s.view H K)
  revs : s'.revs = s.revs
  next : s'.nextRev = s.nextRev
  li : s'.logIndex = s.logIndex

theorem vundoN_add (n m : Nat) (j : List Entry) (v : View) :
    vundoN H K j v (n + m) = (vundoN H K j v n).bind fun v => vundoN H K (j.drop n) v m := by
  induction n generalizing j v with
  | zero => simp [vundoN]
  | succ n ih =>
    rw [Nat.add_right_comm]
    cases j with
    | nil => simp only [vundoN, Option.bind_some, List.drop_nil]; cases m <;> rfl
    | cons e j =>
      simp only [vundoN]
      cases vundo H K v e with
      | none => rfl
      | some v => simp only [Option.bind_some, List.drop_succ_cons]; exact ih j _

theorem Trans.refl {s : SDB} (h : Inv H K S W s) : Trans H K S W s s := ⟨h, ⟨[], rfl, by simp [vundoN]⟩, rfl, rfl, rfl⟩

theorem Trans.trans {s t u : SDB} (h1 : Trans H K S W s t) (h2 : Trans H K S W t u) : Trans H K S W s u := by
  obtain ⟨es, e1, e2⟩ := h1.ext
  obtain ⟨fs, f1, f2⟩ := h2.ext
  refine ⟨h2.inv, ⟨fs ++ es, by rw [f1, e1, List.append_assoc], ?_⟩, h2.revs.trans h1.revs, h2.next.trans h1.next,
    h2.li.trans h1.li⟩
  rw [List.length_append, vundoN_add, f2]
  simp only [Option.bind_some]
  rw [f1, List.drop_append_of_le_length (Nat.le_refl _), List.drop_length, List.nil_append, e2]

/-- One more entry: it is enough to undo it on views. -/
theorem Trans.one {s s' : SDB} {e : Entry} {v : View} (hi : Inv H K S W s') (hj : s'.journal = e :: s.journal)
    (hu : vundo H K (s'.view H K) e = some v) (hv : v.marks s.journal = s.view H K)
    (hr : s'.revs = s.revs) (hn : s'.nextRev = s.nextRev) (hl : s'.logIndex = s.logIndex) : Trans H K S W s s' := by
  refine ⟨hi, ⟨[e], by rw [hj]; rfl, ?_⟩, hr, hn, hl⟩
  rw [hj]
  simp only [List.length_cons, List.length_nil, vundoN, hu, Option.bind_some, hv]

theorem Inv.load (hW : W → WF H K S) {s : SDB} (h : Inv H K S W s) (a : Addr) : Inv H K S W (s.load H K a) := by
  unfold SDB.load
  split
  · exact h
  · refine ⟨fun b o hb => ?_, h.journal, h.al, h.dirties, fun b hb => ?_⟩
    · by_cases e : b = a
      · subst e; simp only [upd_same] at hb; exact getObj_ok hW hb
      · simp only [upd_other _ _ e] at hb; exact h.objs b o hb
    · rename_i hn
      by_cases e : b = a
      · subst e; exact absurd hn (h.live b hb)
      · simp only [upd_other _ _ e]; exact h.live b hb

theorem trans_load (hW : W → WF H K S) {s : SDB} (h : Inv H K S W s) (a : Addr) : Trans H K S W s (s.load H K a) := by
  refine ⟨h.load hW a, ⟨[], ?_, ?_⟩, ?_, ?_, ?_⟩
  · unfold SDB.load; split <;> rfl
  · simp only [List.length_nil, vundoN]; rw [view_load]
  all_goals (unfold SDB.load; split <;> rfl)

theorem Inv.put {s : SDB} (h : Inv H K S W s) {a : Addr} {o : Obj} (ho : ObjOK H K S W a o) : Inv H K S W (s.put a o) := by
  refine ⟨fun b o' hb => ?_, h.journal, h.al, h.dirties, fun b hb => ?_⟩
  · by_cases e : b = a
    · subst e; simp only [SDB.put, upd_same, Option.some.injEq] at hb; exact hb ▸ ho
    · simp only [SDB.put, upd_other _ _ e] at hb; exact h.objs b o' hb
  · by_cases e : b = a
    · subst e; simp [SDB.put, upd_same]
    · simp only [SDB.put, upd_other _ _ e]; exact h.live b hb

/-- Changing the caches of an object. -/
theorem trans_cache {s : SDB} (h : Inv H K S W s) {a : Addr} {o o' : Obj} (ho : s.lookup H K a = some o)
    (ho' : ObjOK H K S W a o') (hv : objView H K a o' = objView H K a o) :
    Trans H K S W s (s.put a o') ∧ (s.put a o').view H K = s.view H K := by
  have : (s.put a o').view H K = s.view H K := by
    rw [view_put, hv, upd_self (by rw [accts_view, ho]; rfl)]
  exact ⟨⟨h.put ho', ⟨[], rfl, by simp [vundoN, this]⟩, rfl, rfl, rfl⟩, this⟩

/-- Entry `e` for account `a` and the changed object. -/
theorem Inv.append_put {s : SDB} (h : Inv H K S W s) {a : Addr} {e : Entry} (he : e.dirtied = some a)
    (hok : EntryOK H K S W s.journal e) (hal : rebuild (e :: s.journal) = rebuild s.journal) {o : Obj}
    (ho : ObjOK H K S W a o) : Inv H K S W ((s.append e).put a o) := by
  refine ⟨fun b o' hb => ?_, ⟨hok, h.journal⟩, ?_, ?_, fun b hb => ?_⟩
  · by_cases e : b = a
    · subst e; simp only [SDB.put, upd_same, Option.some.injEq] at hb; exact hb ▸ ho
    · simp only [SDB.put, upd_other _ _ e] at hb; exact h.objs b o' hb
  · show s.al = rebuild (e :: s.journal)
    rw [hal]; exact h.al
  · show DOK (match e.dirtied with | some a => bump a s.dirties | none => s.dirties) (e :: s.journal)
    rw [he]; exact h.dirties.bump he
  · by_cases e' : b = a
    · subst e'; simp [SDB.put, upd_same]
    · simp only [SDB.put, upd_other _ _ e', SDB.append]
      refine h.live b ?_
      rw [show ((s.append e).put a o).journal = e :: s.journal from rfl] at hb
      rw [touches_cons_other (by rw [he]; simp only [ne_eq, Option.some.injEq]; exact fun e => e' e.symm)] at hb
      exact hb

theorem view_set {s : SDB} {a : Addr} {e : Entry} (he : e.dirtied = some a) (hr : ∀ b, e.isReset b = false) (o : Obj) :
    ((s.append e).put a o).view H K = (s.view H K).set a (objView H K a o) := by
  rw [view_put, view_append]
  unfold View.set View.marks SDB.view
  simp only [View.marks, View.mk.injEq, true_and]
  constructor
  · funext b
    by_cases h : b = a
    · subst h; simp [upd_same, he]
    · rw [upd_other _ _ h]; simp [he, Ne.symm h]
  · funext b; simp [hr]

/-- Undoing on the view where only account `a` differs. -/
theorem trans_set {s : SDB} (h : Inv H K S W s) {a : Addr} {e : Entry} (he : e.dirtied = some a) (hr : ∀ b, e.isReset b = false)
    (hok : EntryOK H K S W s.journal e) (hal : rebuild (e :: s.journal) = rebuild s.journal) {o o' : Obj}
    (hl : s.lookup H K a = some o) (ho' : ObjOK H K S W a o')
    (hu : ∀ v : View, v.accts a = some (objView H K a o') → vundo H K v e = some { v with accts := upd v.accts a (some (objView H K a o)) }) :
    Trans H K S W s ((s.append e).put a o') ∧ ((s.append e).put a o').view H K = (s.view H K).set a (objView H K a o') := by
  refine ⟨Trans.one (h.append_put he hok hal ho') rfl (hu _ ?_) ?_ rfl rfl rfl, view_set he hr o'⟩
  · rw [view_set he hr]; simp [View.set, upd_same]
  · rw [view_set he hr]
    unfold View.set View.marks
    simp only [upd_upd]
    rw [upd_self (by rw [accts_view, hl]; rfl)]
    rfl

/-- Creating an account where there was none. -/
theorem trans_create {s : SDB} (hW : W → WF H K S) (h : Inv H K S W s) {a : Addr} (hl : s.lookup H K a = none) :
    Trans H K S W s (s.createObject H K a).1 ∧ (s.createObject H K a).1.view H K = (s.view H K).set a (freshAcct H K a) ∧
      (s.createObject H K a).2 = none := by
  have ho : s.objs a = none := by
    unfold SDB.lookup at hl; split at hl
    · cases hl
    · assumption
  have hK : K.getObj H a = none := by
    unfold SDB.lookup at hl; rw [ho] at hl; exact hl
  have hseq : K.seq a = none := by
    unfold Store.getObj at hK
    cases hs : K.seq a with
    | none => rfl
    | some n => rw [hs] at hK; cases hK
  have hld : s.load H K a = s := by
    unfold SDB.load; rw [ho]; simp only [hK]; rw [upd_self ho]
  have ht : touches s.journal a = 0 := by
    apply Nat.eq_zero_of_not_pos
    intro hp; exact h.live a hp ho
  have hc : (s.createObject H K a).1 = (s.append (.create a)).put a (newObj H) := by
    unfold SDB.createObject; simp only [hl, hld]
  have hnv : objView H K a (newObj H) = freshAcct H K a := by
    simp [objView, newObj, freshAcct, Obj.codeVal]
    funext k; simp [Obj.stateVal, Obj.committed]
  refine ⟨?_, ?_, by unfold SDB.createObject; simp only [hl]⟩
  · rw [hc]
    refine Trans.one (v := { ((s.append (.create a)).put a (newObj H)).view H K with accts := (s.view H K).accts })
      (h.append_put (e := .create a) rfl ⟨hseq, ht⟩ rfl ObjOK.new) rfl ?_ ?_ rfl rfl rfl
    · rw [view_put]
      simp only [vundo, upd_upd]
      rw [show ((s.append (.create a)).view H K).accts = (s.view H K).accts from rfl]
      rw [upd_self (by rw [accts_view, hl]; rfl)]
    · rfl
  · rw [hc, view_set rfl (fun _ => rfl), hnv]

/-- `getOrNewStateObject`. -/
theorem trans_getOrNew {s : SDB} (hW : W → WF H K S) (h : Inv H K S W s) (a : Addr) :
    Trans H K S W s (s.getOrNew H K a).1 ∧ (s.getOrNew H K a).1.view H K = ((s.view H K).orNew H K a).1 ∧
      (s.getOrNew H K a).1.lookup H K a = some (s.getOrNew H K a).2 ∧
      objView H K a (s.getOrNew H K a).2 = ((s.view H K).orNew H K a).2 := by
  unfold SDB.getOrNew View.orNew
  rw [accts_view]
  cases hl : s.lookup H K a with
  | some o =>
    simp only [Option.map_some]
    exact ⟨trans_load hW h a, view_load s a, by rw [lookup_load, hl], by simp⟩
  | none =>
    simp only [Option.map_none]
    obtain ⟨t1, t2, t3⟩ := trans_create hW h hl
    refine ⟨t1, t2, ?_, ?_⟩
    · unfold SDB.createObject; simp only [lookup_put, if_true]
    · have := congrArg (fun v => v.accts a) t2
      simp only [View.set, upd_same, accts_view] at this
      unfold SDB.createObject at this
      simp only [lookup_put, if_true, Option.map_some, Option.some.injEq] at this
      exact this

end EVM
