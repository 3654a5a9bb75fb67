/-!
# Key-value stores

A store is modelled as a list of entries with distinct keys.  An iterator of the real store yields the entries in key
order; where the order matters the model sorts the entries at the point where they are iterated.
-/
namespace KV
variable {κ α : Type} [DecidableEq κ]

/-- `store.Get`. -/
def get (m : List (κ × α)) (k : κ) : Option α := (m.find? (fun e => decide (e.1 = k))).map (·.2)

/-- `store.Delete`. -/
def del (m : List (κ × α)) (k : κ) : List (κ × α) := m.filter (fun e => decide (e.1 ≠ k))

/-- `store.Set`. -/
def set (m : List (κ × α)) (k : κ) (v : α) : List (κ × α) := (k, v) :: del m k

/-- The keys of a store are distinct. -/
def Distinct (m : List (κ × α)) : Prop := (m.map (·.1)).Nodup

theorem get_nil (k : κ) : get ([] : List (κ × α)) k = none := rfl

theorem get_cons (e : κ × α) (m : List (κ × α)) (k : κ) :
    get (e :: m) k = if e.1 = k then some e.2 else get m k := by
  unfold get
  by_cases h : e.1 = k
  · simp [h]
  · simp [h]

theorem get_eq_none {m : List (κ × α)} {k : κ} : get m k = none ↔ ∀ e ∈ m, e.1 ≠ k := by
  induction m with
  | nil => simp [get_nil]
  | cons e m ih =>
    rw [get_cons]
    by_cases h : e.1 = k
    · simp [h]
    · simp [h, ih]

theorem mem_of_get {m : List (κ × α)} {k : κ} {v : α} (h : get m k = some v) : (k, v) ∈ m := by
  induction m with
  | nil => simp [get_nil] at h
  | cons e m ih =>
    rw [get_cons] at h
    by_cases he : e.1 = k
    · rw [if_pos he] at h
      cases h
      rw [← he]
      exact List.mem_cons_self
    · rw [if_neg he] at h
      exact List.mem_cons_of_mem _ (ih h)

theorem get_of_mem {m : List (κ × α)} (hd : Distinct m) {k : κ} {v : α} (h : (k, v) ∈ m) : get m k = some v := by
  induction m with
  | nil => cases h
  | cons e m ih =>
    unfold Distinct at hd ih
    rw [List.map_cons, List.nodup_cons] at hd
    rw [get_cons]
    rcases List.mem_cons.1 h with h | h
    · rw [← h]
      simp
    · have : e.1 ≠ k := by
        intro hk
        apply hd.1
        rw [hk]
        exact List.mem_map_of_mem (f := (·.1)) h
      rw [if_neg this]
      exact ih hd.2 h

theorem get_iff_mem {m : List (κ × α)} (hd : Distinct m) {k : κ} {v : α} : get m k = some v ↔ (k, v) ∈ m :=
  ⟨mem_of_get, get_of_mem hd⟩

theorem mem_del {m : List (κ × α)} {k : κ} {e : κ × α} : e ∈ del m k ↔ e ∈ m ∧ e.1 ≠ k := by
  simp [del]

theorem distinct_del {m : List (κ × α)} (hd : Distinct m) (k : κ) : Distinct (del m k) :=
  List.Nodup.sublist (List.filter_sublist.map _) hd

theorem distinct_set {m : List (κ × α)} (hd : Distinct m) (k : κ) (v : α) : Distinct (set m k v) := by
  unfold Distinct set
  rw [List.map_cons, List.nodup_cons]
  refine ⟨?_, distinct_del hd k⟩
  intro h
  obtain ⟨e, he, hk⟩ := List.mem_map.1 h
  exact (mem_del.1 he).2 hk

theorem get_del (m : List (κ × α)) (k k' : κ) : get (del m k) k' = if k' = k then none else get m k' := by
  induction m with
  | nil => simp [del, get_nil]
  | cons e m ih =>
    by_cases he : e.1 = k
    · have : del (e :: m) k = del m k := by simp [del, he]
      rw [this, ih, get_cons]
      by_cases hk : k' = k
      · rw [if_pos hk, if_pos hk]
      · rw [if_neg hk, if_neg hk, if_neg (by rw [he]; exact fun h => hk h.symm)]
    · have : del (e :: m) k = e :: del m k := by simp [del, he]
      rw [this, get_cons, get_cons, ih]
      by_cases hk : k' = k
      · subst hk
        simp [he]
      · simp [hk]

theorem get_set (m : List (κ × α)) (k k' : κ) (v : α) :
    get (set m k v) k' = if k' = k then some v else get m k' := by
  unfold set
  rw [get_cons, get_del]
  by_cases hk : k' = k
  · simp [hk]
  · rw [if_neg hk, if_neg hk, if_neg (fun h => hk h.symm)]

theorem mem_set {m : List (κ × α)} {k : κ} {v : α} {e : κ × α} :
    e ∈ set m k v ↔ e = (k, v) ∨ (e ∈ m ∧ e.1 ≠ k) := by
  unfold set
  rw [List.mem_cons, mem_del]

theorem del_of_get_none {m : List (κ × α)} {k : κ} (h : get m k = none) : del m k = m := by
  unfold del
  rw [List.filter_eq_self]
  intro e he
  simpa using get_eq_none.1 h e he

/-- An entry can be taken out of a store. -/
theorem perm_of_get {m : List (κ × α)} (hd : Distinct m) {k : κ} {v : α} (h : get m k = some v) :
    m.Perm ((k, v) :: del m k) := by
  induction m with
  | nil => simp [get_nil] at h
  | cons e m ih =>
    have hd' := hd
    unfold Distinct at hd
    rw [List.map_cons, List.nodup_cons] at hd
    rw [get_cons] at h
    by_cases he : e.1 = k
    · rw [if_pos he] at h
      cases h
      have : del (e :: m) k = del m k := by simp [del, he]
      rw [this, del_of_get_none (m := m)]
      · rw [← he]
      · rw [get_eq_none]
        intro e' he' hk
        apply hd.1
        rw [he, ← hk]
        exact List.mem_map_of_mem (f := (·.1)) he'
    · rw [if_neg he] at h
      have : del (e :: m) k = e :: del m k := by simp [del, he]
      rw [this]
      exact ((ih hd.2 h).cons e).trans (.swap _ _ _)

end KV
