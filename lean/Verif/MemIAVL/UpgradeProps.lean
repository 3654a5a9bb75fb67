import Verif.MemIAVL.DBLemmas
/-!
# memiavl: store upgrades (C16)

The specification works on the set of stores as a partial function from names to trees.
-/
namespace MemIAVL
open MultiTree

/-- A set of named stores. -/
abbrev Stores := Name → Option Tree

/-- Put a tree under a name. -/
def Stores.put (S : Stores) (n : Name) (t : Option Tree) : Stores := fun k => if k = n then t else S k

/-- What one upgrade is to do; `none` if it must be refused.  `fresh` is the tree of a new store. -/
def specUpgrade (fresh : Tree) (S : Stores) (u : Upgrade) : Option Stores :=
  if u.delete then
    -- delete an existing store
    (S u.name).map fun _ => S.put u.name none
  else if u.renameFrom = [] then
    -- add a store that does not exist
    match S u.name with
    | none => some (S.put u.name (some fresh))
    | some _ => none
  else
    -- move an existing store to a free name
    match S u.renameFrom with
    | none => none
    | some t => if u.name = u.renameFrom then some S else
      match S u.name with
      | none => some ((S.put u.renameFrom none).put u.name (some t))
      | some _ => none

/-- What a list of upgrades is to do. -/
def specUpgrades (fresh : Tree) : Stores → List Upgrade → Option Stores
  | S, [] => some S
  | S, u :: us => (specUpgrade fresh S u).bind fun S => specUpgrades fresh S us

/-- The stores of a multi-tree, as callers look them up (`TreeByName`). -/
def MultiTree.stores (t : MultiTree) : Stores := t.treeByName

/-- The tree of a store added at the next version: empty, and its first commit will be that version. -/
def MultiTree.freshTree (t : MultiTree) : Tree := Tree.empty (nextVersion t.version t.initialVersion - 1)

/-! ### Helper lemmas -/

/-- Lookup in a list of stores. -/
def look (l : List (Name × Tree)) : Stores := fun n => (l.find? (fun p => p.1 == n)).map (·.2)

theorem look_some {l : List (Name × Tree)} (hn : (l.map (·.1)).Nodup) {n t} : look l n = some t ↔ (n, t) ∈ l := by
  unfold look
  constructor
  · intro h
    obtain ⟨p, hp, rfl⟩ := Option.map_eq_some_iff.1 h
    have h1 := List.mem_of_find?_eq_some hp
    have h2 := List.find?_some hp
    have : p.1 = n := by simpa using h2
    rw [← this]; exact h1
  · intro h
    cases hf : l.find? (fun p => p.1 == n) with
    | none =>
      have := List.find?_eq_none.1 hf _ h
      simp at this
    | some p =>
      have h1 := List.mem_of_find?_eq_some hf
      have h2 := List.find?_some hf
      have h3 : p.1 = n := by simpa using h2
      have := pair_eq hn h1 h h3
      subst this; rfl

theorem look_none {l : List (Name × Tree)} {n} : look l n = none ↔ n ∉ l.map (·.1) := by
  unfold look
  rw [Option.map_eq_none_iff, List.find?_eq_none]
  simp only [beq_iff_eq, List.mem_map, not_exists, not_and]

theorem look_perm {l l' : List (Name × Tree)} (hp : l.Perm l') (hn : (l.map (·.1)).Nodup) : look l = look l' := by
  funext n
  have hn' := nodup_names_perm hp hn
  cases h : look l n with
  | none =>
    rw [look_none] at h
    exact (look_none.2 fun h' => h ((hp.map (·.1)).mem_iff.2 h')).symm
  | some t =>
    rw [look_some hn] at h
    exact ((look_some hn').2 (hp.mem_iff.1 h)).symm

theorem mem_names_iff {l : List (Name × Tree)} {n} : n ∈ l.map (·.1) ↔ ∃ t, look l n = some t := by
  cases h : look l n with
  | none => simp [look_none.1 h]
  | some t =>
    simp only [Option.some.injEq, exists_eq', iff_true]
    exact Classical.byContradiction fun h' => by rw [look_none.2 h'] at h; cases h

theorem newTree_eq {next : Nat} : Tree.newWithInitialVersion next = Tree.empty (next - 1) := by
  unfold Tree.newWithInitialVersion
  split
  · rw [show next - 1 = 0 by omega]
  · rfl

/-- One upgrade on a list without double names. -/
theorem upSpec_look {next : Nat} {l r : List (Name × Tree)} {u} (hn : (l.map (·.1)).Nodup) (h : upSpec next l u = some r) :
    ((r.map (·.1)).Nodup → specUpgrade (Tree.empty (next - 1)) (look l) u = some (look r)) ∧
    (∀ S, specUpgrade (Tree.empty (next - 1)) (look l) u = some S → (r.map (·.1)).Nodup ∧ look r = S) := by
  unfold upSpec at h
  unfold specUpgrade
  by_cases hd : u.delete
  · simp only [hd, if_true] at h ⊢
    split at h
    · rename_i hm
      cases h
      obtain ⟨t, ht⟩ := mem_names_iff.1 hm
      rw [ht]
      have hn' : ((l.filter (fun p => p.1 ≠ u.name)).map (·.1)).Nodup := (List.filter_sublist.map _).nodup hn
      have hl : look (l.filter (fun p => p.1 ≠ u.name)) = (look l).put u.name none := by
        funext k
        unfold Stores.put
        by_cases hk : k = u.name
        · rw [if_pos hk, look_none]
          simp [hk]
        · rw [if_neg hk]
          cases hlk : look l k with
          | none =>
            rw [look_none] at hlk ⊢
            intro h'
            obtain ⟨p, hp, rfl⟩ := List.mem_map.1 h'
            exact hlk (List.mem_map_of_mem (List.mem_filter.1 hp).1)
          | some t' =>
            rw [look_some hn] at hlk
            rw [look_some hn', List.mem_filter]
            exact ⟨hlk, by simpa using hk⟩
      refine ⟨fun _ => by rw [hl]; rfl, fun S hS => ⟨hn', ?_⟩⟩
      simp only [Option.map_some, Option.some.injEq] at hS
      rw [hl, hS]
    · cases h
  · have hd' : u.delete = false := by simpa using hd
    simp only [hd', Bool.false_eq_true, if_false] at h ⊢
    by_cases hrf : u.renameFrom = []
    · simp only [hrf, ne_eq, not_true_eq_false, if_false] at h
      cases h
      rw [if_pos hrf]
      have hnew : Tree.newWithInitialVersion next = Tree.empty (next - 1) := newTree_eq
      have key : look l u.name = none → ((l ++ [(u.name, Tree.newWithInitialVersion next)]).map (·.1)).Nodup ∧
          look (l ++ [(u.name, Tree.newWithInitialVersion next)]) = (look l).put u.name (some (Tree.empty (next - 1))) := by
        intro hnone
        have hnd : ((l ++ [(u.name, Tree.newWithInitialVersion next)]).map (·.1)).Nodup := by
          rw [List.map_append, List.nodup_append]
          refine ⟨hn, by simp, ?_⟩
          intro a ha b hb
          simp only [List.map_cons, List.map_nil, List.mem_singleton] at hb
          subst hb; rintro rfl; exact look_none.1 hnone ha
        refine ⟨hnd, ?_⟩
        funext k
        unfold Stores.put
        by_cases hk : k = u.name
        · rw [if_pos hk, look_some hnd, hk, hnew]; simp
        · rw [if_neg hk]
          cases hlk : look l k with
          | none =>
            rw [look_none] at hlk ⊢
            simp only [List.map_append, List.mem_append, List.map_cons, List.map_nil, List.mem_singleton]
            exact fun h => h.elim hlk hk
          | some t' =>
            rw [look_some hn] at hlk
            rw [look_some hnd]
            exact List.mem_append_left _ hlk
      constructor
      · intro hnd
        have : look l u.name = none := by
          rw [look_none]
          intro hm
          rw [List.map_append, List.nodup_append] at hnd
          exact hnd.2.2 _ hm _ (by simp) rfl
        rw [this]
        simp only [(key this).2]
      · intro S hS
        cases hlu : look l u.name with
        | none =>
          rw [hlu] at hS
          simp only [Option.some.injEq] at hS
          exact ⟨(key hlu).1, by rw [(key hlu).2, hS]⟩
        | some t => rw [hlu] at hS; simp at hS
    · simp only [hrf, ne_eq, not_false_eq_true, if_true] at h
      rw [if_neg hrf]
      split at h
      · rename_i hm
        simp only [Option.some.injEq] at h
        obtain ⟨t, ht⟩ := mem_names_iff.1 hm
        simp only [ht]
        have htm := (look_some hn).1 ht
        by_cases hname : u.name = u.renameFrom
        · have hr : r = l := by
            rw [← h]
            apply map_self
            intro x _
            by_cases hx : x.1 = u.renameFrom
            · simp only [if_pos hx]; rw [hname, ← hx]
            · simp only [if_neg hx]
          rw [hr]
          simp only [if_pos hname, Option.some.injEq]
          exact ⟨fun _ => trivial, fun S hS => ⟨hn, hS⟩⟩
        · simp only [if_neg hname]
          have hnames : ∀ k, k ∈ r.map (·.1) ↔ k = u.name ∨ (k ≠ u.renameFrom ∧ k ∈ l.map (·.1)) := by
            intro k
            rw [← h]
            simp only [List.map_map, List.mem_map, Function.comp]
            constructor
            · rintro ⟨p, hp, rfl⟩
              by_cases hx : p.1 = u.renameFrom
              · simp [if_pos hx]
              · simp only [if_neg hx]; exact .inr ⟨hx, p, hp, rfl⟩
            · rintro (rfl | ⟨hk, p, hp, rfl⟩)
              · exact ⟨_, htm, by simp⟩
              · exact ⟨p, hp, by simp [if_neg hk]⟩
          have key : look l u.name = none → (r.map (·.1)).Nodup ∧
              look r = ((look l).put u.renameFrom none).put u.name (some t) := by
            intro hnone
            have hnd : (r.map (·.1)).Nodup := by
              rw [← h, List.map_map]
              rw [List.Nodup, List.pairwise_map] at hn ⊢
              refine hn.imp_of_mem ?_
              intro a b ha hb hab
              simp only [Function.comp]
              have ha' : a.1 ≠ u.name := fun e => look_none.1 hnone (e ▸ List.mem_map_of_mem ha)
              have hb' : b.1 ≠ u.name := fun e => look_none.1 hnone (e ▸ List.mem_map_of_mem hb)
              by_cases h1 : a.1 = u.renameFrom <;> by_cases h2 : b.1 = u.renameFrom
              · exact absurd (h1.trans h2.symm) hab
              · simp only [if_pos h1, if_neg h2]; exact Ne.symm hb'
              · simp only [if_neg h1, if_pos h2]; exact ha'
              · simp only [if_neg h1, if_neg h2]; exact hab
            refine ⟨hnd, ?_⟩
            funext k
            unfold Stores.put
            by_cases hk : k = u.name
            · rw [if_pos hk, look_some hnd, ← h, List.mem_map]
              exact ⟨_, htm, by simp [hk]⟩
            · rw [if_neg hk]
              by_cases hk2 : k = u.renameFrom
              · rw [if_pos hk2, look_none, hnames]
                rintro (h | ⟨h, -⟩)
                · exact hk h
                · exact h hk2
              · rw [if_neg hk2]
                cases hlk : look l k with
                | none =>
                  rw [look_none] at hlk ⊢
                  rw [hnames]
                  rintro (h | ⟨-, h⟩)
                  · exact hk h
                  · exact hlk h
                | some t' =>
                  rw [look_some hn] at hlk
                  rw [look_some hnd, ← h, List.mem_map]
                  exact ⟨_, hlk, by simp [if_neg hk2]⟩
          constructor
          · intro hnd
            have hnone : look l u.name = none := by
              rw [look_none]
              intro hm
              obtain ⟨p, hp, hpn⟩ := List.mem_map.1 hm
              have hne : p.1 ≠ u.renameFrom := by rw [hpn]; exact hname
              rw [← h, List.map_map, List.Nodup, List.pairwise_map] at hnd
              obtain ⟨a, b, rfl⟩ := List.append_of_mem htm
              rw [List.pairwise_append, List.pairwise_cons] at hnd
              obtain ⟨-, ⟨d1, -⟩, d2⟩ := hnd
              rcases List.mem_append.1 hp with hp | hp
              · have := d2 p hp _ (List.mem_cons_self)
                simp [if_neg hne] at this
                exact this hpn
              · rcases List.mem_cons.1 hp with rfl | hp
                · exact hne rfl
                · have := d1 p hp
                  simp [if_neg hne] at this
                  exact this hpn.symm
            rw [hnone]
            simp only [(key hnone).2]
          · intro S hS
            cases hlu : look l u.name with
            | none =>
              rw [hlu] at hS
              simp only [Option.some.injEq] at hS
              exact ⟨(key hlu).1, by rw [(key hlu).2, hS]⟩
            | some t => rw [hlu] at hS; simp at hS
      · cases h

/-- One upgrade of the code's loop. -/
theorem upgradeStep_look {next : Nat} {l r : List (Name × Tree)} {u} (hn : (l.map (·.1)).Nodup) (h : upgradeStep next l u = some r)
    (hr : (r.map (·.1)).Nodup) : specUpgrade (Tree.empty (next - 1)) (look l) u = some (look r) := by
  obtain ⟨r', h1, h2⟩ := (upgradeStep_spec hn).1 h
  rw [look_perm h2 hr]
  exact (upSpec_look hn h1).1 (nodup_names_perm h2 hr)

theorem upgradeStep_of_spec {next : Nat} {l : List (Name × Tree)} {u} {S : Stores} (hn : (l.map (·.1)).Nodup)
    (h : specUpgrade (Tree.empty (next - 1)) (look l) u = some S) :
    ∃ r, upgradeStep next l u = some r ∧ (r.map (·.1)).Nodup ∧ look r = S := by
  have hex : ∃ r, upSpec next l u = some r := by
    unfold upSpec
    unfold specUpgrade at h
    by_cases hd : u.delete
    · simp only [hd, if_true] at h ⊢
      obtain ⟨t, ht, -⟩ := Option.map_eq_some_iff.1 h
      rw [if_pos (mem_names_iff.2 ⟨t, ht⟩)]; exact ⟨_, rfl⟩
    · have hd' : u.delete = false := by simpa using hd
      simp only [hd', Bool.false_eq_true, if_false] at h ⊢
      by_cases hrf : u.renameFrom = []
      · simp [hrf]
      · rw [if_neg hrf] at h
        simp only [hrf, ne_eq, not_false_eq_true, if_true]
        cases hlk : look l u.renameFrom with
        | none => rw [hlk] at h; simp at h
        | some t => rw [if_pos (mem_names_iff.2 ⟨t, hlk⟩)]; exact ⟨_, rfl⟩
  obtain ⟨r, hr⟩ := hex
  obtain ⟨h1, h2⟩ := (upSpec_look hn hr).2 S h
  obtain ⟨r', h3, h4⟩ := (upgradeStep_spec hn).2 hr
  have hnd := nodup_names_perm h4.symm h1
  exact ⟨r', h3, hnd, by rw [look_perm h4 hnd, h2]⟩

theorem upgradeFold_of_spec {next : Nat} {us : List Upgrade} {l : List (Name × Tree)} {S : Stores} (hn : (l.map (·.1)).Nodup)
    (h : specUpgrades (Tree.empty (next - 1)) (look l) us = some S) :
    ∃ r, us.foldlM (upgradeStep next) l = some r ∧ (r.map (·.1)).Nodup ∧ look r = S := by
  induction us generalizing l with
  | nil => simp only [specUpgrades, Option.some.injEq] at h; exact ⟨l, rfl, hn, h⟩
  | cons u us ih =>
    simp only [specUpgrades] at h
    obtain ⟨S1, h1, h2⟩ := Option.bind_eq_some_iff.1 h
    obtain ⟨r1, h3, h4, h5⟩ := upgradeStep_of_spec hn h1
    subst h5
    obtain ⟨r, h6, h7, h8⟩ := ih h4 h2
    exact ⟨r, by simp only [List.foldlM_cons, h3]; exact h6, h7, h8⟩

/-! ### Theorems -/

/-- The multi-tree keeps its stores under different names in ascending order (true of every reachable database,
`C14`/`C11` files; here as a hypothesis). -/
def MultiTree.Ordered (t : MultiTree) : Prop := t.trees.Pairwise (fun a b => a.1 < b.1)

/-- If no upgrade of the list conflicts with the stores at its turn, `ApplyUpgrades` succeeds, every store is then what the
specification says (so stores not named keep their trees), names stay ordered and unique, and version, initial version
and commit info are untouched. -/
theorem C16_upgrades_as_specified (t : MultiTree) (ht : t.Ordered) (us : List Upgrade) (S : Stores)
    (h : specUpgrades t.freshTree t.stores us = some S) :
    ∃ t', t.applyUpgrades us = some t' ∧ t'.stores = S ∧ t'.Ordered ∧ t'.version = t.version ∧
      t'.initialVersion = t.initialVersion ∧ t'.infos = t.infos := by
  have hn := nodup_of_sorted ht
  obtain ⟨r, h1, h2, h3⟩ := upgradeFold_of_spec hn h
  by_cases h0 : us = []
  · subst h0
    simp only [specUpgrades, Option.some.injEq] at h
    exact ⟨t, rfl, h, ht, rfl, rfl, rfl⟩
  · refine ⟨_, applyUpgrades_of h0 h1 h2, ?_, sortNames_sorted h2, rfl, rfl, rfl⟩
    show look (sortNames r) = S
    rw [← look_perm (sortNames_perm r).symm h2, h3]

/-- One upgrade at a time, `ApplyUpgrades` refuses exactly what the specification refuses. -/
theorem C16_single_upgrade_iff (t : MultiTree) (ht : t.Ordered) (u : Upgrade) :
    (t.applyUpgrades [u]).map (·.stores) = specUpgrade t.freshTree t.stores u := by
  have hn := nodup_of_sorted ht
  cases hs : specUpgrade t.freshTree t.stores u with
  | some S =>
    obtain ⟨t', h1, h2, -⟩ := C16_upgrades_as_specified t ht [u] S (by simp [specUpgrades, hs])
    rw [h1, Option.map_some, h2]
  | none =>
    rw [Option.map_eq_none_iff]
    cases ha : t.applyUpgrades [u] with
    | none => rfl
    | some t' =>
      obtain ⟨-, -, -, h⟩ := applyUpgrades_some ha
      rcases h with ⟨h, -⟩ | ⟨-, l, h1, h2, h3⟩
      · cases h
      · simp only [List.foldlM_cons, List.foldlM_nil, bind_pure] at h1
        have := upgradeStep_look hn h1 h2
        unfold MultiTree.freshTree MultiTree.stores at hs
        rw [show t.treeByName = look t.trees from rfl, this] at hs
        cases hs

/-- For lists: success without any clash of names on the way is success of the specification, with the same stores. -/
theorem C16_accepted_lists_partial (t : MultiTree) (ht : t.Ordered) (us : List Upgrade) (t' : MultiTree)
    (h : t.applyUpgrades us = some t')
    (hc : ∀ n r, (us.take n).foldlM (upgradeStep (nextVersion t.version t.initialVersion)) t.trees = some r → (r.map (·.1)).Nodup) :
    specUpgrades t.freshTree t.stores us = some t'.stores := by
  obtain ⟨-, -, -, h'⟩ := applyUpgrades_some h
  rcases h' with ⟨rfl, rfl⟩ | ⟨h0, l, h1, h2, h3⟩
  · rfl
  · have hst : t'.stores = look l := by
      show look t'.trees = _
      rw [h3]; exact (look_perm (sortNames_perm l).symm h2).symm
    rw [hst]
    have hn := nodup_of_sorted ht
    unfold MultiTree.freshTree MultiTree.stores
    rw [show t.treeByName = look t.trees from rfl]
    clear h h0 h3 hst ht
    generalize nextVersion t.version t.initialVersion = next at *
    generalize t.trees = L at *
    induction us generalizing L with
    | nil => simp only [List.foldlM_nil] at h1; cases h1; rfl
    | cons u us ih =>
      simp only [List.foldlM_cons] at h1
      obtain ⟨r1, k1, k2⟩ := Option.bind_eq_some_iff.1 h1
      have hr1 := hc 1 r1 (by simp [k1])
      simp only [specUpgrades, upgradeStep_look hn k1 hr1, Option.bind_some]
      refine ih r1 hr1 ?_ k2
      intro n r hr
      exact hc (n + 1) r (by simp only [List.take_succ_cons, List.foldlM_cons, k1]; exact hr)

/-- The example tree: two stores, at version 3. -/
def upgradeExample : MultiTree :=
  { initialVersion := 0, trees := [([1], (Tree.empty 2).set [7] [8]), ([2], Tree.empty 3)], version := 3, infos := [] }

example : upgradeExample.Ordered ∧
    (specUpgrades upgradeExample.freshTree upgradeExample.stores [⟨[3], [1], false⟩, ⟨[2], [], true⟩, ⟨[1], [], false⟩]).isSome = true ∧
    (upgradeExample.applyUpgrades [⟨[3], [1], false⟩, ⟨[2], [], true⟩, ⟨[1], [], false⟩]).map (fun t => t.trees.map (·.1)) =
      some [[1], [3]] := by unfold MultiTree.Ordered; decide +kernel

/-- Full statement: a list is refused as soon as one of its upgrades conflicts with the stores at its turn.  It is false:
the conflict check looks at the final list only.  Adding a store that exists and then deleting it is accepted, and
which of the two trees survives depends on the order. -/
theorem C16_transient_conflict_accepted :
    specUpgrades upgradeExample.freshTree upgradeExample.stores [⟨[1], [], false⟩, ⟨[1], [], true⟩] = none ∧
    ((upgradeExample.applyUpgrades [⟨[1], [], false⟩, ⟨[1], [], true⟩]).map fun t => (t.treeByName [1]).map (·.get [7])) =
      some (some none) ∧
    (upgradeExample.treeByName [1]).map (·.get [7]) = some (some [8]) := by decide +kernel

end MemIAVL
