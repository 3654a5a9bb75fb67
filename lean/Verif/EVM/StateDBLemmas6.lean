import Verif.EVM.StateDBLemmas5
/-!
# EVM state: lemmas about the commit
-/
namespace EVM

variable {H : Bytes → Hash} {K : Store} {S : Bytes → Prop}

/-- The parts of the store that belong to one address. -/
def Store.raw (T : Store) (a : Addr) : Option Nat × Nat × Option Hash × (Key → Word) := (T.seq a, T.bal a, T.codeHash a, T.state a)

/-- What the commit leaves for an address with object `o`. -/
def finalRaw (H : Bytes → Hash) (K : Store) (a : Addr) (o : Obj) : Option Nat × Nat × Option Hash × (Key → Word) :=
  if o.suicided then
    match K.seq a with
    | none => K.raw a
    | some _ => (none, 0, none, fun _ => 0)
  else (some o.nonce, o.balance.toNat, if o.codeHash = H [] then none else some o.codeHash, fun k => (o.dirty k).getD (K.state a k))

/-- Codes are filed under their hash and known. -/
def CodesOK (H : Bytes → Hash) (S : Bytes → Prop) (T : Store) : Prop := ∀ h c, T.code h = some c → c ≠ [] ∧ H c = h ∧ S c

/-- Everything filed in `T` is filed in `T'`. -/
def CodesExt (T T' : Store) : Prop := ∀ h c, T.code h = some c → T'.code h = some c

/-- The code of a live object is in the store. -/
def CodeIn (H : Bytes → Hash) (T : Store) (o : Obj) : Prop :=
  o.suicided = false → (∀ c, o.code = some c → o.codeHash ≠ H [] → T.code o.codeHash = some c) ∧
    (o.code = none → o.codeHash ≠ H [] → ∃ c, T.code o.codeHash = some c)

theorem CodeIn.ext {T T' : Store} {o : Obj} (h : CodeIn H T o) (he : CodesExt T T') : CodeIn H T' o := by
  intro hs
  obtain ⟨h1, h2⟩ := h hs
  exact ⟨fun c hc hh => he _ _ (h1 c hc hh), fun hc hh => by obtain ⟨c, h⟩ := h2 hc hh; exact ⟨c, he _ _ h⟩⟩

theorem commitObj_ok (hinj : ∀ c d, S c → S d → H c = H d → c = d) (hnil : S []) {T : Store} {a : Addr} {o : Obj}
    (hT : CodesOK H S T) (hK : CodesExt K T) (hraw : T.raw a = K.raw a) (ho : CodeOK H K S o.code o.codeHash o.dirtyCode)
    (h1 : o.suicided = true → K.seq a = none ∨ K.codeHash a ≠ none) (h2 : o.suicided = false → 0 ≤ o.balance) :
    ∃ T', T.commitObj H a o = some T' ∧ T'.raw a = finalRaw H K a o ∧ (∀ b, b ≠ a → T'.raw b = T.raw b) ∧
      CodesOK H S T' ∧ CodesExt T T' ∧ CodeIn H T' o := by
  obtain ⟨r1, r2, r3, r4⟩ : T.seq a = K.seq a ∧ T.bal a = K.bal a ∧ T.codeHash a = K.codeHash a ∧ T.state a = K.state a := by
    simp only [Store.raw, Prod.mk.injEq] at hraw; exact hraw
  unfold Store.commitObj
  cases hs : o.suicided with
  | true =>
    simp only [if_true, Store.deleteAccount, r1, r3]
    cases hq : K.seq a with
    | none =>
      exact ⟨T, rfl, by simp only [finalRaw, hs, if_true, hq, hraw], fun _ _ => rfl, hT, fun _ _ h => h, fun h => by rw [hs] at h; cases h⟩
    | some n =>
      cases hc : K.codeHash a with
      | none => rcases h1 hs with h | h <;> simp_all
      | some h =>
        refine ⟨_, rfl, ?_, ?_, hT, fun _ _ h => h, fun h => by rw [hs] at h; cases h⟩
        · simp only [Store.raw, finalRaw, hs, if_true, hq, upd_same]
        · intro b hb; simp only [Store.raw, upd_other _ _ hb]
  | false =>
    simp only [Bool.false_eq_true, if_false]
    have hb := h2 hs
    have hraw' : ∀ b, (T.writeCode o).raw b = T.raw b := by intro b; unfold Store.writeCode; split <;> rfl
    have hstate : ∀ b, (T.writeCode o).state b = T.state b := by intro b; unfold Store.writeCode; split <;> rfl
    have hcode : CodesOK H S (T.writeCode o) ∧ CodesExt T (T.writeCode o) ∧ CodeIn H (T.writeCode o) o := by
      unfold Store.writeCode
      split
      · rename_i c hc hd
        rw [hc, hd] at ho
        obtain ⟨o1, o2, -⟩ := ho
        refine ⟨?_, ?_, ?_⟩
        · intro h c' hc'
          simp only at hc'
          by_cases e : h = o.codeHash
          · subst e
            rw [upd_same] at hc'
            split at hc'
            · cases hc'
            · rename_i hne; cases hc'; exact ⟨hne, o2, o1⟩
          · rw [upd_other _ _ e] at hc'; exact hT h c' hc'
        · intro h c' hc'
          simp only
          by_cases e : h = o.codeHash
          · subst e
            obtain ⟨t1, t2, t3⟩ := hT _ _ hc'
            have : c' = c := hinj _ _ t3 o1 (by rw [t2, o2])
            subst this
            rw [upd_same, if_neg t1]
          · rw [upd_other _ _ e]; exact hc'
        · intro _
          refine ⟨?_, by rw [hc]; intro h; cases h⟩
          intro c' hc' hne
          rw [hc] at hc'; cases hc'
          simp only [upd_same]
          rw [if_neg (by rintro rfl; exact hne o2.symm)]
      · rename_i hn
        refine ⟨hT, fun _ _ h => h, fun _ => ⟨?_, ?_⟩⟩
        · intro c hc hne
          rw [hc] at ho
          rcases ho.2.2 with h | h
          · exact absurd h (fun h => hn c hc h)
          · exact hK _ _ h
        · intro hc hne
          rw [hc] at ho
          rcases ho with h | ⟨c, h⟩
          · exact absurd h hne
          · exact ⟨c, hK _ _ h⟩
    have hset : ((T.writeCode o).setAccount H a o).map (fun K => K.writeState a o) = some (Store.writeState { T.writeCode o with
        seq := upd (T.writeCode o).seq a (some o.nonce)
        codeHash := upd (T.writeCode o).codeHash a (if o.codeHash = H [] then none else some o.codeHash)
        bal := upd (T.writeCode o).bal a o.balance.toNat } a o) := by
      rw [Store.setAccount, if_neg (by omega), Option.map_some]
    refine ⟨_, hset, ?_, ?_, hcode.1, hcode.2.1, hcode.2.2⟩
    · simp only [Store.raw, Store.writeState, finalRaw, hs, upd_same, hstate, r4, Bool.false_eq_true, if_false]
    · intro b hb'
      have := hraw' b
      simp only [Store.raw, Store.writeState, upd_other _ _ hb'] at *
      exact this

theorem commit_fold (hinj : ∀ c d, S c → S d → H c = H d → c = d) (hnil : S []) {s : SDB} (l : List Addr) (hl : l.Nodup) {T : Store}
    (hT : CodesOK H S T) (hK : CodesExt K T) (hraw : ∀ a ∈ l, T.raw a = K.raw a)
    (hobj : ∀ a ∈ l, ∃ o, s.objs a = some o ∧ CodeOK H K S o.code o.codeHash o.dirtyCode ∧
      (o.suicided = true → K.seq a = none ∨ K.codeHash a ≠ none) ∧ (o.suicided = false → 0 ≤ o.balance)) :
    ∃ T', l.foldlM (fun T a => (s.objs a).bind fun o => T.commitObj H a o) T = some T' ∧
      (∀ a ∈ l, ∀ o, s.objs a = some o → T'.raw a = finalRaw H K a o ∧ CodeIn H T' o) ∧
      (∀ a, a ∉ l → T'.raw a = T.raw a) ∧ CodesOK H S T' ∧ CodesExt T T' := by
  induction l generalizing T with
  | nil => exact ⟨T, rfl, by simp, fun _ _ => rfl, hT, fun _ _ h => h⟩
  | cons a l ih =>
    obtain ⟨ha, hl⟩ := List.nodup_cons.1 hl
    obtain ⟨o, ho, ho1, ho2, ho3⟩ := hobj a (by simp)
    obtain ⟨T1, t1, t2, t3, t4, t5, t6⟩ := commitObj_ok hinj hnil hT hK (hraw a (by simp)) ho1 ho2 ho3
    have hne : ∀ b ∈ l, b ≠ a := by rintro b hb rfl; exact ha hb
    obtain ⟨T2, u1, u2, u3, u4, u5⟩ := ih hl t4 (fun h c hc => t5 _ _ (hK _ _ hc))
      (fun b hb => by rw [t3 b (hne b hb)]; exact hraw b (by simp [hb])) (fun b hb => hobj b (by simp [hb]))
    refine ⟨T2, ?_, ?_, ?_, u4, fun h c hc => u5 _ _ (t5 _ _ hc)⟩
    · rw [List.foldlM_cons, ho]
      simp only [Option.bind_some, t1, Option.bind_eq_bind]
      exact u1
    · intro b hb o' ho'
      rcases List.mem_cons.1 hb with rfl | hb
      · rw [ho] at ho'; cases ho'
        exact ⟨by rw [u3 b ha, t2], t6.ext u5⟩
      · exact u2 b hb o' ho'
    · intro b hb
      simp only [List.mem_cons, not_or] at hb
      rw [u3 b hb.2, t3 b hb.1]

/-! ### Untouched accounts of the specification -/

theorem View.step_marks {li : Nat} {v v' : View} {op : Op} {o : Out} (h : v.step H K li op = some (v', o)) (a : Addr) :
    (v.touched a = true → v'.touched a = true) ∧ (v.recreated a = true → v'.recreated a = true) ∧
    (v'.touched a = false → v'.recreated a = false → v'.accts a = v.accts a) := by
  have hset : ∀ (w : View) b ac, (w.touched a = true → (w.set b ac).touched a = true) ∧
      (w.recreated a = true → (w.set b ac).recreated a = true) ∧
      ((w.set b ac).touched a = false → (w.set b ac).accts a = w.accts a) := by
    intro w b ac
    by_cases e : a = b
    · subst e; simp [View.set, upd_same]
    · simp [View.set, upd_other _ _ e]
  have hnew : ∀ b, (v.touched a = true → (v.orNew H K b).1.touched a = true) ∧
      (v.recreated a = true → (v.orNew H K b).1.recreated a = true) ∧
      ((v.orNew H K b).1.touched a = false → (v.orNew H K b).1.accts a = v.accts a) := by
    intro b
    unfold View.orNew
    split
    · simp
    · exact hset _ _ _
  have hboth : ∀ b ac, (v.touched a = true → ((v.orNew H K b).1.set b ac).touched a = true) ∧
      (v.recreated a = true → ((v.orNew H K b).1.set b ac).recreated a = true) ∧
      (((v.orNew H K b).1.set b ac).touched a = false → ((v.orNew H K b).1.set b ac).accts a = v.accts a) := by
    intro b ac
    obtain ⟨n1, n2, n3⟩ := hnew b
    obtain ⟨s1, s2, s3⟩ := hset (v.orNew H K b).1 b ac
    refine ⟨fun h => s1 (n1 h), fun h => s2 (n2 h), fun h => ?_⟩
    rw [s3 h]
    refine n3 ?_
    cases ht : (v.orNew H K b).1.touched a with
    | false => rfl
    | true => rw [s1 ht] at h; cases h
  have fin : ∀ {w : View}, ((v.touched a = true → w.touched a = true) ∧ (v.recreated a = true → w.recreated a = true) ∧
      (w.touched a = false → w.accts a = v.accts a)) → w = v' → ((v.touched a = true → v'.touched a = true) ∧
      (v.recreated a = true → v'.recreated a = true) ∧ (v'.touched a = false → v'.recreated a = false → v'.accts a = v.accts a)) := by
    rintro w ⟨h1, h2, h3⟩ rfl
    exact ⟨h1, h2, fun h _ => h3 h⟩
  cases op with
  | snapshot => cases h
  | revert _ => cases h
  | createAccount b =>
    simp only [View.step] at h
    split at h
    · simp only [Option.some.injEq, Prod.mk.injEq] at h; exact fin (hset _ _ _) h.1
    · simp only [Option.some.injEq, Prod.mk.injEq] at h
      obtain ⟨rfl, -⟩ := h
      by_cases e : a = b
      · subst e; simp [upd_same]
      · simp [upd_other _ _ e]
  | addBalance b n =>
    simp only [View.step] at h
    split at h <;> simp only [Option.some.injEq, Prod.mk.injEq] at h
    · exact fin (hnew b) h.1
    · exact fin (hboth b _) h.1
  | subBalance b n =>
    simp only [View.step] at h
    split at h <;> simp only [Option.some.injEq, Prod.mk.injEq] at h
    · exact fin (hnew b) h.1
    · exact fin (hboth b _) h.1
  | setNonce b n =>
    simp only [View.step, Option.some.injEq, Prod.mk.injEq] at h
    exact fin (hboth b _) h.1
  | setCode b c =>
    simp only [View.step, Option.some.injEq, Prod.mk.injEq] at h
    exact fin (hboth b _) h.1
  | setState b k w =>
    simp only [View.step] at h
    split at h <;> simp only [Option.some.injEq, Prod.mk.injEq] at h
    · exact fin (hnew b) h.1
    · exact fin (hboth b _) h.1
  | suicide b =>
    simp only [View.step] at h
    split at h <;> simp only [Option.some.injEq, Prod.mk.injEq] at h
    · obtain ⟨rfl, -⟩ := h; simp
    · exact fin (hset _ _ _) h.1
  | subRefund g =>
    simp only [View.step] at h
    split at h
    · cases h
    · simp only [Option.some.injEq, Prod.mk.injEq] at h
      obtain ⟨rfl, -⟩ := h; simp
  | _ =>
    simp only [View.step, Option.some.injEq, Prod.mk.injEq] at h
    obtain ⟨rfl, -⟩ := h
    simp

theorem View.replay_marks {li : Nat} (l : List Op) {v v' : View} (h : v.replay H K li l = some v') (a : Addr) :
    (v.touched a = true → v'.touched a = true) ∧ (v.recreated a = true → v'.recreated a = true) ∧
    (v'.touched a = false → v'.recreated a = false → v'.accts a = v.accts a) := by
  induction l generalizing v with
  | nil => simp only [View.replay, List.foldlM_nil, Option.pure_def, Option.some.injEq] at h; subst h; simp
  | cons op l ih =>
    simp only [View.replay, List.foldlM_cons, Option.bind_eq_bind] at h
    cases hs : v.step H K li op with
    | none => rw [hs] at h; simp at h
    | some p =>
      obtain ⟨w, o⟩ := p
      rw [hs, Option.map_some, Option.bind_some] at h
      obtain ⟨h1, h2, h3⟩ := View.step_marks hs a
      obtain ⟨g1, g2, g3⟩ := ih (v := w) h
      refine ⟨fun h => g1 (h1 h), fun h => g2 (h2 h), fun k1 k2 => ?_⟩
      rw [g3 k1 k2]
      refine h3 ?_ ?_
      · cases hw : w.touched a with
        | false => rfl
        | true => rw [g1 hw] at k1; cases k1
      · cases hw : w.recreated a with
        | false => rfl
        | true => rw [g2 hw] at k2; cases k2

theorem touched_iff (s : SDB) (a : Addr) : (s.view H K).touched a = true ↔ 0 < touches s.journal a := by
  show (s.journal.any fun e => e.dirtied == some a) = true ↔ _
  unfold touches
  rw [List.countP_pos_iff, List.any_eq_true]

/-- The commit. -/
theorem commit_ok {li : Nat} (hWF : WF H K S) {s : SDB} {σ : Spec} (hR : R H K S True s σ) {h : Hist} (ht : Told H K li σ h)
    (h1 : ∀ a, σ.cur.recreated a = true → σ.cur.touched a = true)
    (h2 : ∀ a ac, σ.cur.accts a = some ac → σ.cur.touched a = true → ac.suicided = false → 0 ≤ ac.balance)
    (h3 : ∀ a ac, σ.cur.accts a = some ac → ac.suicided = true → K.seq a = none ∨ K.codeHash a ≠ none) :
    ∃ T, s.commit H K = some T ∧ (∀ a, T.acct H a = σ.cur.settled a) ∧
      (∀ a, σ.cur.touched a = false → T.raw a = K.raw a) ∧ CodesExt K T ∧ WF H T S := by
  have hperm := StableSort.sortBy_perm (fun a b => decide (a ≤ b)) (s.dirties.map (·.1))
  have hnd : s.sortedDirties.Nodup := hperm.nodup_iff.2 hR.inv.dirties.nodup
  have hmem : ∀ a, a ∈ s.sortedDirties ↔ σ.cur.touched a = true := by
    intro a
    rw [← hR.view, touched_iff, ← hR.inv.dirties.mem_keys]
    exact hperm.mem_iff
  have hview : ∀ a o, s.objs a = some o → σ.cur.accts a = some (objView H K a o) := by
    intro a o ho
    rw [← hR.view, accts_view]
    unfold SDB.lookup; rw [ho]; rfl
  have hobj : ∀ a ∈ s.sortedDirties, ∃ o, s.objs a = some o ∧ CodeOK H K S o.code o.codeHash o.dirtyCode ∧
      (o.suicided = true → K.seq a = none ∨ K.codeHash a ≠ none) ∧ (o.suicided = false → 0 ≤ o.balance) := by
    intro a ha
    have ha' := (hmem a).1 ha
    have hl := hR.inv.live a (by rw [← hR.view, touched_iff] at ha'; exact ha')
    cases ho : s.objs a with
    | none => exact absurd ho hl
    | some o =>
      exact ⟨o, rfl, (hR.inv.objs a o ho).code trivial, fun hs => h3 a _ (hview a o ho) hs,
        fun hs => h2 a _ (hview a o ho) ha' hs⟩
  obtain ⟨T, t1, t2, t3, t4, t5⟩ := commit_fold (T := K) hWF.inj hWF.nil s.sortedDirties hnd (fun h c hc => hWF.code h c hc)
    (fun _ _ h => h) (fun _ _ => rfl) hobj
  refine ⟨T, t1, ?_, ?_, t5, ?_⟩
  · intro a
    cases hta : σ.cur.touched a with
    | false =>
      have hr := t3 a (fun h => by rw [(hmem a).1 h] at hta; cases hta)
      have hre : σ.cur.recreated a = false := by
        cases h : σ.cur.recreated a with
        | false => rfl
        | true => rw [h1 a h] at hta; cases hta
      have hac := (View.replay_marks h.ops ht.cur a).2.2 hta hre
      rw [show (K.view H).accts a = K.acct H a from rfl] at hac
      have hT : T.acct H a = K.acct H a := by
        simp only [Store.raw, Prod.mk.injEq] at hr
        unfold Store.acct
        rw [hr.1, hr.2.1, hr.2.2.1, hr.2.2.2]
        cases K.seq a with
        | none => rfl
        | some n =>
          simp only [Option.map_some, Option.some.injEq, Acct.mk.injEq, true_and, and_true]
          cases hh : K.codeHash a with
          | none => simp
          | some hc =>
            obtain ⟨c, hk⟩ := hWF.hash a hc hh
            simp only [Option.getD_some, hk, t5 _ _ hk]
      rw [hT]
      unfold View.settled
      rw [hac]
      unfold Store.acct
      cases K.seq a <;> rfl
    | true =>
      have ham := (hmem a).2 hta
      obtain ⟨o, ho, ho1, ho2, ho3⟩ := hobj a ham
      obtain ⟨r, hc⟩ := t2 a ham o ho
      unfold View.settled
      rw [hview a o ho, Option.bind_some]
      show _ = if o.suicided then none else some (objView H K a o)
      cases hs : o.suicided with
      | true =>
        simp only [if_true]
        simp only [Store.raw, finalRaw, hs, if_true] at r
        have : T.seq a = none := by
          cases hq : K.seq a with
          | none => simp only [hq, Prod.mk.injEq] at r; exact r.1
          | some n => simp only [hq, Prod.mk.injEq] at r; exact r.1
        unfold Store.acct; rw [this]; rfl
      | false =>
        simp only [Bool.false_eq_true, if_false]
        simp only [Store.raw, finalRaw, hs, Bool.false_eq_true, if_false, Prod.mk.injEq] at r
        obtain ⟨r1, r2, r3, r4⟩ := r
        unfold Store.acct objView
        rw [r1, r2, r3, r4]
        have hb := ho3 hs
        simp only [Option.map_some, Option.some.injEq, Acct.mk.injEq, true_and]
        have hch : (if o.codeHash = H [] then none else some o.codeHash).getD (H []) = o.codeHash := by
          split
          · rename_i e; exact e.symm
          · rfl
        refine ⟨by omega, hch, ?_, ?_, hs.symm⟩
        · rw [hch]
          obtain ⟨c1, c2⟩ := hc hs
          unfold Obj.codeVal
          by_cases he : o.codeHash = H []
          · rw [if_pos he]
            cases hcd : o.code with
            | none => simp [he]
            | some c =>
              rw [hcd] at ho1
              have := hWF.inj c [] ho1.1 hWF.nil (by rw [ho1.2.1, he])
              subst this; rfl
          · rw [if_neg he]
            cases hcd : o.code with
            | some c => rw [c1 c hcd he]
            | none =>
              simp only [he, if_false]
              rw [hcd] at ho1
              rcases ho1 with h | ⟨c, h⟩
              · exact absurd h he
              · rw [h, t5 _ _ h]
        · funext k
          unfold Obj.stateVal Obj.committed
          cases hd : o.dirty k with
          | some w => rfl
          | none =>
            simp only [Option.getD_none]
            cases hor : o.origin k with
            | none => rfl
            | some w => exact ((hR.inv.objs a o ho).origin k w hor).symm
  · intro a hta
    exact t3 a (fun h => by rw [(hmem a).1 h] at hta; cases hta)
  · refine ⟨t4, ?_, hWF.nil, hWF.inj⟩
    intro a hh hah
    by_cases ham : a ∈ s.sortedDirties
    · obtain ⟨o, ho, ho1, ho2, ho3⟩ := hobj a ham
      obtain ⟨r, hc⟩ := t2 a ham o ho
      cases hs : o.suicided with
      | true =>
        simp only [Store.raw, finalRaw, hs, if_true] at r
        cases hq : K.seq a with
        | none =>
          simp only [hq, Prod.mk.injEq] at r
          rw [r.2.2.1] at hah
          obtain ⟨c, hk⟩ := hWF.hash a hh hah
          exact ⟨c, t5 _ _ hk⟩
        | some n =>
          simp only [hq, Prod.mk.injEq] at r
          rw [r.2.2.1] at hah; cases hah
      | false =>
        simp only [Store.raw, finalRaw, hs, Bool.false_eq_true, if_false, Prod.mk.injEq] at r
        rw [r.2.2.1] at hah
        split at hah
        · cases hah
        · rename_i he
          cases hah
          obtain ⟨c1, c2⟩ := hc hs
          cases hcd : o.code with
          | some c => exact ⟨c, c1 c hcd he⟩
          | none => exact c2 hcd he
    · have r := t3 a ham
      simp only [Store.raw, Prod.mk.injEq] at r
      rw [r.2.2.1] at hah
      obtain ⟨c, hk⟩ := hWF.hash a hh hah
      exact ⟨c, t5 _ _ hk⟩

end EVM
