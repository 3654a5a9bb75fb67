import Verif.Rpc.ProposalListSpec
/-!
# Lemmas on lists of proposals
-/

namespace ProposalList

theorem split_cons (sep c : Nat) (cs : List Nat) : split sep (c :: cs) =
    if c = sep then [] :: split sep cs
    else match split sep cs with
      | [] => [[c]]
      | p :: ps => (c :: p) :: ps := rfl

theorem split_ne (sep : Nat) (s : List Nat) : split sep s ≠ [] := by
  cases s with
  | nil => exact fun h => (by cases h)
  | cons c cs =>
    unfold split
    split
    · exact fun h => (by cases h)
    · cases split sep cs <;> exact fun h => (by cases h)

theorem split_length (sep : Nat) (s : List Nat) : (split sep s).length = s.count sep + 1 := by
  induction s with
  | nil => rfl
  | cons c cs ih =>
    rw [split_cons]
    by_cases h : c = sep
    · rw [if_pos h, List.length_cons, ih, h, List.count_cons_self]
    · rw [if_neg h, List.count_cons_of_ne h, ← ih]
      cases hs : split sep cs with
      | nil => exact absurd hs (split_ne _ _)
      | cons p ps => rfl

theorem split_none {sep : Nat} {s : List Nat} (h : ∀ c ∈ s, c ≠ sep) : split sep s = [s] := by
  induction s with
  | nil => rfl
  | cons c cs ih =>
    unfold split
    rw [if_neg (h c List.mem_cons_self), ih (fun d hd => h d (List.mem_cons_of_mem _ hd))]

theorem split_append (sep : Nat) (a b : List Nat) : split sep (a ++ sep :: b) = split sep a ++ split sep b := by
  induction a with
  | nil =>
    rw [List.nil_append]
    show (if sep = sep then _ else _) = _
    rw [if_pos rfl]
    rfl
  | cons c cs ih =>
    rw [List.cons_append, split_cons, split_cons]
    by_cases h : c = sep
    · rw [if_pos h, if_pos h, ih, List.cons_append]
    · rw [if_neg h, if_neg h, ih]
      cases hs : split sep cs with
      | nil => exact absurd hs (split_ne _ _)
      | cons p ps => rfl

theorem split_pair {k v : List Nat} (hk : Plain k) (hv : Plain v) : split 61 (pair k v) = [k, v] := by
  unfold pair
  rw [split_append, split_none (fun c hc => (hk c hc).2), split_none (fun c hc => (hv c hc).2)]
  rfl

theorem split_amp {k v : List Nat} (hk : Plain k) (hv : Plain v) : split 38 (pair k v) = [pair k v] := by
  apply split_none
  intro c hc
  unfold pair at hc
  rw [List.mem_append, List.mem_cons] at hc
  rcases hc with hc | hc | hc
  · exact (hk c hc).1
  · rw [hc]
    decide
  · exact (hv c hc).1

theorem split_join {es : List (List Nat × List Nat)} (hne : es ≠ []) (h : ∀ e ∈ es, Plain e.1 ∧ Plain e.2) :
    split 38 (join es) = es.map fun e => pair e.1 e.2 := by
  induction es with
  | nil => exact absurd rfl hne
  | cons e es ih =>
    have he := h e List.mem_cons_self
    cases es with
    | nil => exact split_amp he.1 he.2
    | cons d ds =>
      show split 38 (pair e.1 e.2 ++ 38 :: join (d :: ds)) = _
      rw [split_append, split_amp he.1 he.2, ih (fun x => (by cases x)) (fun x hx => h x (List.mem_cons_of_mem _ hx))]
      rfl

theorem request_join (addr : List Nat → Nat) (page size : Nat) {es : List (List Nat × List Nat)}
    (h : ∀ e ∈ es, Plain e.1 ∧ Plain e.2) :
    request addr page size (join es) = (es.map fun e => pair e.1 e.2).foldl (part addr) (plain page size) := by
  cases es with
  | nil => rfl
  | cons e es =>
    unfold request
    rw [split_join (fun x => (by cases x)) h]

theorem lastOf_cons (key : List Nat) (e : List Nat × List Nat) (es : List (List Nat × List Nat)) :
    lastOf key (e :: es) = match lastOf key es with
      | some v => some v
      | none => if e.1 = key then some e.2 else none := rfl

theorem last_wins {α : Type} (addr : List Nat → Nat) (key : List Nat) (get : Request → α) (ok : List Nat → Prop)
    (set : List Nat → α)
    (hset : ∀ r v, Plain v → ok v → get (part addr r (pair key v)) = set v)
    (hkeep : ∀ r k v, Plain k → Plain v → k ≠ key → get (part addr r (pair k v)) = get r)
    {es : List (List Nat × List Nat)} (h : ∀ e ∈ es, Plain e.1 ∧ Plain e.2) (hok : ∀ e ∈ es, e.1 = key → ok e.2) (r : Request) :
    get ((es.map fun e => pair e.1 e.2).foldl (part addr) r) = ((lastOf key es).map set).getD (get r) := by
  induction es generalizing r with
  | nil => rfl
  | cons e es ih =>
    have he := h e List.mem_cons_self
    rw [List.map_cons, List.foldl_cons,
      ih (fun x hx => h x (List.mem_cons_of_mem _ hx)) (fun x hx => hok x (List.mem_cons_of_mem _ hx))]
    rw [lastOf_cons]
    cases lastOf key es with
    | some v => rfl
    | none =>
      by_cases hk : e.1 = key
      · dsimp only
        rw [if_pos hk]
        show get _ = set e.2
        rw [hk]
        exact hset _ _ he.2 (hok e List.mem_cons_self hk)
      · dsimp only
        rw [if_neg hk]
        exact hkeep _ _ _ he.1 he.2 hk

theorem number_value {s : List Nat} (h : ∀ c ∈ s, 48 ≤ c ∧ c ≤ 57) (acc : Nat) :
    number acc s = some (acc * 10 ^ s.length + value s) := by
  induction s generalizing acc with
  | nil =>
    unfold number value
    rw [List.length_nil, Nat.pow_zero, Nat.mul_one, Nat.add_zero]
  | cons c cs ih =>
    unfold number value
    rw [if_pos (h c List.mem_cons_self), ih (fun d hd => h d (List.mem_cons_of_mem _ hd)), List.length_cons, Nat.pow_succ,
      Nat.add_mul, Nat.add_assoc]
    congr 2
    rw [Nat.mul_assoc, Nat.mul_comm 10]

theorem number_bad {s : List Nat} {c : Nat} (hc : c ∈ s) (hb : ¬ (48 ≤ c ∧ c ≤ 57)) (acc : Nat) : number acc s = none := by
  induction s generalizing acc with
  | nil => cases hc
  | cons d ds ih =>
    unfold number
    cases hc with
    | head => rw [if_neg hb]
    | tail _ hc =>
      split
      · exact ih hc _
      · rfl

theorem decimal_plain {s : List Nat} (h : Decimal s) : Plain s := by
  intro c hc
  have := h.2 c hc
  omega

theorem detail_good {m : Message} (h : ¬ Bad m) : detail m = some (shownAs m) := by
  cases m with
  | undecodable => rfl
  | unwritable c =>
    cases c with
    | true => rfl
    | false => exact absurd (Or.inl rfl) h
  | noContent => exact absurd (Or.inr (Or.inl rfl)) h
  | content f =>
    cases f with
    | noText => exact absurd (Or.inr (Or.inr rfl)) h
    | missing => rfl
    | empty => rfl
    | object => rfl
    | noObject => rfl

theorem detail_bad {m : Message} (h : Bad m) : detail m = none := by
  rcases h with h | h | h <;> rw [h] <;> rfl

theorem details_good {ms : List Message} (h : ∀ m ∈ ms, ¬ Bad m) (acc : List Detail) :
    details ms acc = some (acc ++ ms.map shownAs) := by
  induction ms generalizing acc with
  | nil =>
    unfold details
    rw [List.map_nil, List.append_nil]
  | cons m ms ih =>
    unfold details
    rw [detail_good (h m List.mem_cons_self)]
    dsimp only
    rw [ih (fun n hn => h n (List.mem_cons_of_mem _ hn)), List.map_cons, List.append_assoc]
    rfl

theorem details_bad {ms : List Message} {m : Message} (hm : m ∈ ms) (h : Bad m) (acc : List Detail) :
    details ms acc = none := by
  induction ms generalizing acc with
  | nil => cases hm
  | cons n ms ih =>
    unfold details
    cases hm with
    | head => rw [detail_bad h]
    | tail _ hm =>
      split
      · rfl
      · exact ih hm _

theorem format_acc {ps : List Proposal} (h : ∀ p ∈ ps, p.readable = true → Showable p) (acc : List (Nat × List Detail)) :
    format ps acc = .shown (acc ++ (ps.filter Proposal.readable).map entry) := by
  induction ps generalizing acc with
  | nil =>
    unfold format
    rw [List.filter_nil, List.map_nil, List.append_nil]
  | cons p ps ih =>
    unfold format
    have ih' := fun acc => ih (fun q hq => h q (List.mem_cons_of_mem _ hq)) acc
    cases hr : p.readable with
    | false =>
      rw [if_pos (by rfl), ih', List.filter_cons, if_neg (by rw [hr]; decide)]
    | true =>
      have hs := h p List.mem_cons_self hr
      rw [if_neg (by decide), details_good hs.2]
      dsimp only
      rw [hs.1, if_neg (by decide), ih', List.filter_cons, if_pos hr, List.map_cons, List.append_assoc]
      rfl

theorem format_panics {ps : List Proposal} {p : Proposal} (hp : p ∈ ps) (hr : p.readable = true)
    (hv : p.voting = false ∨ ∃ m ∈ p.messages, Bad m) (acc : List (Nat × List Detail)) : format ps acc = .panics := by
  induction ps generalizing acc with
  | nil => cases hp
  | cons q ps ih =>
    unfold format
    cases hp with
    | head =>
      rw [hr, if_neg (by decide)]
      rcases hv with hv | ⟨m, hm, hb⟩
      · split
        · rfl
        · rw [hv, if_pos (by rfl)]
      · rw [details_bad hm hb]
    | tail _ hp =>
      split
      · exact ih hp _
      · split
        · rfl
        · split
          · rfl
          · exact ih hp _

theorem not_showable {p : Proposal} (h : ¬ (p.voting = false ∨ ∃ m ∈ p.messages, Bad m)) : Showable p := by
  refine ⟨?_, fun m hm hb => h (Or.inr ⟨m, hm, hb⟩)⟩
  cases hv : p.voting with
  | true => rfl
  | false => exact absurd (Or.inl hv) h

end ProposalList
