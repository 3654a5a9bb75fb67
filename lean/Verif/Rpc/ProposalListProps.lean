import Verif.Rpc.ProposalListLemmas
/-!
# Properties of lists of proposals (C117)

The property: a page shows the proposals that match the filter, all parts of it, page after page. What is asked of the
gov module is characterised; false are: titles and descriptions do not count, page 0 is no error, and a proposal that
still collects deposits, or that has a message without content, makes the whole page fail.
-/

namespace ProposalList

/-- **Pages tile the list**: page after page, each begins where the one before ends. -/
theorem pages_tile {page size : Nat} (hp : 1 ≤ page) (hb : page * size < 18446744073709551616) (hs : 1 ≤ size) :
    (plain 1 size).offset = 0 ∧ (plain page size).limit = size ∧
      (plain (page + 1) size).offset = (plain page size).offset + (plain page size).limit := by
  have hpp : page < 18446744073709551616 := Nat.lt_of_le_of_lt (Nat.le_mul_of_pos_right page hs) hb
  have key : ∀ n, n * size < 18446744073709551616 → n < 18446744073709551616 → offset (n + 1) size = n * size := by
    intro n h1 h2
    unfold offset
    have : (n + 1 + 18446744073709551615) % 18446744073709551616 = n := by omega
    rw [this, Nat.mod_eq_of_lt h1]
  refine ⟨?_, rfl, ?_⟩
  · show offset (0 + 1) size = 0
    rw [key 0 (by omega) (by omega), Nat.zero_mul]
  · obtain ⟨m, rfl⟩ : ∃ m, page = m + 1 := ⟨page - 1, by omega⟩
    show offset (m + 1 + 1) size = offset (m + 1) size + size
    rw [Nat.add_mul, Nat.one_mul] at hb
    rw [key (m + 1) (by rw [Nat.add_mul]; omega) hpp, key m (by omega) (by omega), Nat.add_mul, Nat.one_mul]

/-- **Page 0 is no error**: it asks from `size` before 2^64 on. -/
theorem page_zero {size : Nat} (h1 : 1 ≤ size) (h2 : size < 18446744073709551616) :
    (plain 0 size).offset = 18446744073709551616 - size := by
  show offset 0 size = _
  unfold offset
  have : (0 + 18446744073709551615) % 18446744073709551616 = 18446744073709551615 := by omega
  rw [this]
  obtain ⟨m, rfl⟩ : ∃ m, size = m + 1 := ⟨size - 1, by omega⟩
  have e : 18446744073709551615 * (m + 1) = (18446744073709551616 - (m + 1)) + 18446744073709551616 * m := by omega
  rw [e, Nat.add_mul_mod_self_left, Nat.mod_eq_of_lt (by omega)]

/-- Without filter both methods ask the same. -/
theorem no_filter (addr : List Nat → Nat) (gov : Request → Option (List Proposal)) (page size : Nat) :
    list addr gov page size [] = listAll gov page size := rfl

/-- **Without filter all proposals are asked for**: any status, of anybody. -/
theorem nothing_filtered (addr : List Nat → Nat) (page size : Nat) :
    (request addr page size []).status = 0 ∧ (request addr page size []).proposer = none ∧
      (request addr page size []).depositor = none ∧ (request addr page size []).voter = none :=
  ⟨rfl, rfl, rfl, rfl⟩

/-- **Malformed parts are no filter**: those without `=`, or with more than one, change nothing. -/
theorem malformed_ignored (addr : List Nat → Nat) (r : Request) {p : List Nat} (h : p.count 61 ≠ 1) : part addr r p = r := by
  have hl := split_length 61 p
  unfold part
  split
  · rename_i k v e
    rw [e] at hl
    exact absurd (Nat.succ.inj hl).symm h
  · rfl

/-- **Parts of a filter add up**: a filter joined to another by `&` is applied on top of it. -/
theorem parts_add_up (addr : List Nat → Nat) (page size : Nat) (f g : List Nat) :
    request addr page size (f ++ 38 :: g) = (split 38 g).foldl (part addr) (request addr page size f) := by
  unfold request
  rw [split_append, List.foldl_append]

/-- A last part `key=value` is applied on top of what is before it. -/
theorem last_part (addr : List Nat → Nat) (page size : Nat) (f : List Nat) {k v : List Nat} (hk : Plain k) (hv : Plain v) :
    request addr page size (f ++ 38 :: pair k v) = part addr (request addr page size f) (pair k v) := by
  rw [parts_add_up, split_amp hk hv]
  rfl

/-- **Filters by status**: decimal numbers below 2^31 are the status asked for, and nothing else changes. -/
theorem status_part (addr : List Nat → Nat) (r : Request) {v : List Nat} (hv : Decimal v) (hb : value v < 2147483648) :
    part addr r (pair kStatus v) = { r with status := (value v : Int) } := by
  unfold part
  rw [split_pair (by decide) (decimal_plain hv)]
  have hp : parseUint32 v = some (value v) := by
    unfold parseUint32
    rw [if_neg hv.1, number_value hv.2, Nat.zero_mul, Nat.zero_add]
    dsimp only
    rw [if_pos (by omega)]
  dsimp only
  rw [if_pos rfl, hp]
  dsimp only
  unfold toInt32
  rw [if_pos hb]

/-- **A status that is no number, or too large, is no filter**: everything is asked for, not nothing. -/
theorem bad_status_ignored (addr : List Nat → Nat) (r : Request) {v : List Nat} (hv : Plain v)
    (hb : v = [] ∨ (∃ c ∈ v, ¬ (48 ≤ c ∧ c ≤ 57)) ∨ (Decimal v ∧ 4294967296 ≤ value v)) :
    part addr r (pair kStatus v) = r := by
  unfold part
  rw [split_pair (by decide) hv]
  have hp : parseUint32 v = none := by
    unfold parseUint32
    split
    · rfl
    · rename_i hne
      rcases hb with hb | ⟨c, hc, hn⟩ | ⟨hd, hl⟩
      · exact absurd hb hne
      · rw [number_bad hc hn]
      · rw [number_value hd.2, Nat.zero_mul, Nat.zero_add]
        dsimp only
        rw [if_neg (by omega)]
  dsimp only
  rw [if_pos rfl, hp]

/-- **Filters by proposer, depositor and voter** set exactly this. -/
theorem address_parts (addr : List Nat → Nat) (r : Request) {v : List Nat} (hv : Plain v) :
    part addr r (pair kProposer v) = { r with proposer := some (addr v) } ∧
    part addr r (pair kDepositor v) = { r with depositor := some (addr v) } ∧
    part addr r (pair kVoter v) = { r with voter := some (addr v) } := by
  unfold part
  rw [split_pair (show Plain kProposer by decide) hv, split_pair (show Plain kDepositor by decide) hv,
    split_pair (show Plain kVoter by decide) hv]
  dsimp only
  refine ⟨?_, ?_, ?_⟩
  · rw [if_neg (show ¬ kProposer = kStatus by decide), if_pos rfl]
  · rw [if_neg (show ¬ kDepositor = kStatus by decide), if_neg (show ¬ kDepositor = kProposer by decide), if_pos rfl]
  · rw [if_neg (show ¬ kVoter = kStatus by decide), if_neg (show ¬ kVoter = kProposer by decide),
      if_neg (show ¬ kVoter = kDepositor by decide), if_pos rfl]

/-- **What a filter asks for**: of each of proposer, depositor and voter the last one given, in whatever order and
among whatever other parts, and nobody in particular if none is given. -/
theorem asked_for (addr : List Nat → Nat) (page size : Nat) {es : List (List Nat × List Nat)}
    (h : ∀ e ∈ es, Plain e.1 ∧ Plain e.2) :
    (request addr page size (join es)).proposer = (lastOf kProposer es).map addr ∧
    (request addr page size (join es)).depositor = (lastOf kDepositor es).map addr ∧
    (request addr page size (join es)).voter = (lastOf kVoter es).map addr := by
  have fin : ∀ o : Option (List Nat), ((o.map fun v => some (addr v)).getD none) = o.map addr := by
    intro o
    cases o <;> rfl
  rw [request_join addr page size h]
  refine ⟨?_, ?_, ?_⟩
  · rw [last_wins addr kProposer Request.proposer (fun _ => True) (fun v => some (addr v)) (fun r v hv _ => by
        rw [(address_parts addr r hv).1]) (fun r k v hk hv hn => by
        unfold part
        rw [split_pair hk hv]
        dsimp only
        split
        · split <;> rfl
        · split
          · rfl
          · split <;> rfl) h (fun _ _ _ => trivial)]
    exact fin _
  · rw [last_wins addr kDepositor Request.depositor (fun _ => True) (fun v => some (addr v)) (fun r v hv _ => by
        rw [(address_parts addr r hv).2.1]) (fun r k v hk hv hn => by
        unfold part
        rw [split_pair hk hv]
        dsimp only
        split
        · split <;> rfl
        · split
          · rfl
          · split <;> rfl) h (fun _ _ _ => trivial)]
    exact fin _
  · rw [last_wins addr kVoter Request.voter (fun _ => True) (fun v => some (addr v)) (fun r v hv _ => by
        rw [(address_parts addr r hv).2.2]) (fun r k v hk hv hn => by
        unfold part
        rw [split_pair hk hv]
        dsimp only
        split
        · split <;> rfl
        · split
          · rfl
          · split
            · rfl
            · rfl) h (fun _ _ _ => trivial)]
    exact fin _

/-- **The status a filter asks for**: the last one given, if all given are decimal numbers below 2^31; any if none is
given. -/
theorem status_asked_for (addr : List Nat → Nat) (page size : Nat) {es : List (List Nat × List Nat)}
    (h : ∀ e ∈ es, Plain e.1 ∧ Plain e.2) (hs : ∀ e ∈ es, e.1 = kStatus → Decimal e.2 ∧ value e.2 < 2147483648) :
    (request addr page size (join es)).status = ((lastOf kStatus es).map fun v => (value v : Int)).getD 0 := by
  rw [request_join addr page size h]
  exact last_wins addr kStatus Request.status (fun v => Decimal v ∧ value v < 2147483648) (fun v => (value v : Int))
    (fun r v _ hok => by rw [status_part addr r hok.1 hok.2])
    (fun r k v hk hv hn => by
      unfold part
      rw [split_pair hk hv]
      dsimp only
      rw [if_neg hn]
      split
      · rfl
      · split
        · rfl
        · split <;> rfl) h hs _

/-- **Titles and descriptions do not count**: with these parts a filter gives the same list as without. -/
theorem title_ignored (addr : List Nat → Nat) (gov : Request → Option (List Proposal)) (page size : Nat) (f : List Nat)
    {v : List Nat} (hv : Plain v) :
    list addr gov page size (f ++ 38 :: pair kTitle v) = list addr gov page size f ∧
      list addr gov page size (f ++ 38 :: pair kDescription v) = list addr gov page size f := by
  have h : ∀ r, part addr r (pair kTitle v) = r ∧ part addr r (pair kDescription v) = r := by
    intro r
    unfold part
    rw [split_pair (show Plain kTitle by decide) hv, split_pair (show Plain kDescription by decide) hv]
    dsimp only
    refine ⟨?_, ?_⟩
    · rw [if_neg (show ¬ kTitle = kStatus by decide), if_neg (show ¬ kTitle = kProposer by decide),
        if_neg (show ¬ kTitle = kDepositor by decide), if_neg (show ¬ kTitle = kVoter by decide)]
    · rw [if_neg (show ¬ kDescription = kStatus by decide), if_neg (show ¬ kDescription = kProposer by decide),
        if_neg (show ¬ kDescription = kDepositor by decide), if_neg (show ¬ kDescription = kVoter by decide)]
  unfold list
  rw [last_part addr page size f (by decide) hv, last_part addr page size f (by decide) hv, (h _).1, (h _).2]
  exact ⟨rfl, rfl⟩

/-- Parts never change which page is asked for. -/
theorem page_stays (addr : List Nat → Nat) (page size : Nat) (f : List Nat) :
    (request addr page size f).offset = (plain page size).offset ∧ (request addr page size f).limit = size := by
  have hp : ∀ r p, (part addr r p).offset = r.offset ∧ (part addr r p).limit = r.limit := by
    intro r p
    unfold part
    split
    · split
      · split <;> exact ⟨rfl, rfl⟩
      · split
        · exact ⟨rfl, rfl⟩
        · split
          · exact ⟨rfl, rfl⟩
          · split <;> exact ⟨rfl, rfl⟩
    · exact ⟨rfl, rfl⟩
  have key : ∀ (l : List (List Nat)) r, (l.foldl (part addr) r).offset = r.offset ∧ (l.foldl (part addr) r).limit = r.limit := by
    intro l
    induction l with
    | nil => exact fun r => ⟨rfl, rfl⟩
    | cons p l ih =>
      intro r
      rw [List.foldl_cons]
      exact ⟨(ih _).1.trans (hp r p).1, (ih _).2.trans (hp r p).2⟩
  exact key _ _

/-- **What is shown**: if all proposals found can be shown, those with a readable proposer, in order, each with an entry
for each of its messages, in order. -/
theorem shown_partial {addr : List Nat → Nat} {gov : Request → Option (List Proposal)} {page size : Nat} {f : List Nat}
    {ps : List Proposal} (hg : gov (request addr page size f) = some ps)
    (hv : ∀ p ∈ ps, p.readable = true → Showable p) :
    list addr gov page size f = .shown ((ps.filter Proposal.readable).map entry) := by
  unfold list
  rw [hg]
  exact format_acc hv []

/-- **A proposal that collects deposits makes its page panic**, and so does one with a message without content or with a
`msg` that is no text; in the model nothing else does. -/
theorem panics_iff {addr : List Nat → Nat} {gov : Request → Option (List Proposal)} {page size : Nat} {f : List Nat} :
    list addr gov page size f = .panics ↔
      ∃ ps, gov (request addr page size f) = some ps ∧ ∃ p ∈ ps, p.readable = true ∧
        (p.voting = false ∨ ∃ m ∈ p.messages, Bad m) := by
  constructor
  · intro h
    cases hg : gov (request addr page size f) with
    | none =>
      unfold list at h
      rw [hg] at h
      cases h
    | some ps =>
      refine ⟨ps, rfl, Classical.byContradiction fun hn => ?_⟩
      have hv : ∀ p ∈ ps, p.readable = true → Showable p := fun p hp hr =>
        not_showable fun hb => hn ⟨p, hp, hr, hb⟩
      rw [shown_partial hg hv] at h
      cases h
  · rintro ⟨ps, hg, p, hp, hr, hv⟩
    unfold list
    rw [hg]
    exact format_panics hp hr hv []

/-- **Failures are reported**: a page fails exactly if the gov module gives no answer. -/
theorem fails_iff {addr : List Nat → Nat} {gov : Request → Option (List Proposal)} {page size : Nat} {f : List Nat} :
    list addr gov page size f = .fails ↔ gov (request addr page size f) = none := by
  constructor
  · intro h
    cases hg : gov (request addr page size f) with
    | none => rfl
    | some ps =>
      by_cases hn : ∃ p ∈ ps, p.readable = true ∧ (p.voting = false ∨ ∃ m ∈ p.messages, Bad m)
      · rw [panics_iff.mpr ⟨ps, hg, hn⟩] at h
        cases h
      · have hv : ∀ p ∈ ps, p.readable = true → Showable p := fun p hp hr =>
          not_showable fun hb => hn ⟨p, hp, hr, hb⟩
        rw [shown_partial hg hv] at h
        cases h
  · intro hg
    unfold list
    rw [hg]

/-! ## The hypotheses are met -/

/-- `voter=a&status=2&voter=bc&title-matches=d`: the second voter counts. -/
example : lastOf kVoter [(kVoter, [97]), (kStatus, [50]), (kVoter, [98, 99]), (kTitle, [100])] = some [98, 99] ∧
    (request (fun v => v.length) 1 10 (join [(kVoter, [97]), (kStatus, [50]), (kVoter, [98, 99]), (kTitle, [100])])).voter = some 2 ∧
    (request (fun v => v.length) 1 10 (join [(kVoter, [97]), (kStatus, [50]), (kVoter, [98, 99]), (kTitle, [100])])).status = 2 := by
  refine ⟨by decide +kernel, ?_, by decide +kernel⟩
  rw [(asked_for _ 1 10 (by decide)).2.2]
  decide +kernel

/-- `status=1=2`. -/
example : part (fun _ => 0) (plain 1 10) (pair kStatus [49, 61, 50]) = plain 1 10 := malformed_ignored _ _ (by decide)

example : list (fun _ => 0) (fun _ => none) 1 10 (pair kStatus [50]) = .fails := fails_iff.mpr rfl

/-- `status=2&voter=a&title-matches=b`. -/
def sample : List Nat := pair kStatus [50] ++ 38 :: pair kVoter [97] ++ 38 :: pair kTitle [98]

example : request (fun v => v.length) 3 10 sample
    = { offset := 20, limit := 10, status := 2, proposer := none, depositor := none, voter := some 1 } := by decide +kernel

example : Decimal [49, 50] ∧ value [49, 50] = 12 := by
  refine ⟨⟨by decide, by decide⟩, by decide⟩

example : (plain 0 10).offset = 18446744073709551606 := page_zero (by decide) (by decide)

/-- A proposal in voting with a message of each kind that can be shown. -/
def inVoting : Proposal :=
  { id := 5, readable := true, voting := true, messages := [.undecodable, .content .object, .content .missing, .unwritable true] }

/-- One that collects deposits. -/
def inDeposit : Proposal := { id := 4, readable := true, voting := false, messages := [] }

/-- One in voting with a message without content. -/
def without : Proposal := { id := 3, readable := true, voting := true, messages := [.content .empty, .noContent] }

example : listAll (fun _ => some [inVoting, inDeposit]) 1 10 = .panics := by decide +kernel

example : listAll (fun _ => some [inVoting, without]) 1 10 = .panics := by decide +kernel

example : listAll (fun _ => some [inVoting, { inDeposit with readable := false }]) 1 10
    = .shown [(5, [.unknown, .msgReplaced, .asWritten, .error])] := by decide +kernel

example : list (fun _ => 0) (fun _ => some [inVoting]) 1 10 sample = .shown [entry inVoting] := by
  refine (shown_partial (ps := [inVoting]) rfl ?_).trans rfl
  intro p hp _
  rw [List.mem_singleton] at hp
  subst hp
  refine ⟨rfl, ?_⟩
  intro m hm hb
  rcases hb with hb | hb | hb <;> subst hb <;> revert hm <;> decide

/-- `status=x`. -/
example : part (fun _ => 0) (plain 1 10) (pair kStatus [120]) = plain 1 10 :=
  bad_status_ignored _ _ (by decide) (Or.inr (Or.inl ⟨120, by decide, by decide⟩))

end ProposalList
