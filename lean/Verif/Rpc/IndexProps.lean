import Verif.Rpc.IndexLemmas3
/-!
# C86: every Ethereum transaction is found by its hash and by its place in the block

Full statement: every Ethereum transaction of the chain is found by its hash and by the height and its
number in the block, with what became of it, whatever the node's history of stops and failures; nothing
else is found; and the transaction at a number is the one the block lists there, with and without the
transaction index.

It holds for the index while no write to it fails and it is not started again empty, and for look-ups by
events in blocks none of whose Ethereum transactions has failed after counting. Outside of that it does
not: see `skipped_on_empty`, `failed_write_is_final` and `events_disagree`.
-/

namespace EthIndex

/-- The list of a block's Ethereum transactions is what it should be. -/
theorem listing_exact (ss : List Step) (hs : ∀ s ∈ ss, Sound s) :
    listing (execBlock 0 ss) = (places 0 ss).map (·.m) := listing_exec ss 0 0 hs

/-- What the events of an executed transaction say is what happened: each message with its hash, its
place among the Ethereum transactions executed in the block, the gas it used, and did it fail. -/
theorem events_read_back (idx gas : Nat) (t : Tx) (hg : gas = (t.eths.map (·.used)).sum) :
    ∃ ps, parse ⟨0, false, gas, anteEvents idx t.eths ++ msgEvents idx t.eths⟩ t = some ps ∧
      ps.length = t.eths.length ∧
      ∀ (j : Nat) (m : Msg), t.eths[j]? = some m →
        ps[j]? = some ⟨m.hash, some (idx + j), m.used, decide (m.error ≠ [])⟩ :=
  ⟨_, parse_ok idx gas t hg, seconds_length _ _, fun j m h => seconds_get t.eths idx j m h⟩

/-- Indexing a block never panics, touches no other block, and makes each of the block's Ethereum
transactions findable. -/
theorem index_block (db : DB) (h : Nat) (ss : List Step) (hf : Fits ss) (hh : h < 256 ^ 8)
    (hd : ∀ (k k' : Nat) (p p' : Place), (places 0 ss)[k]? = some p → (places 0 ss)[k']? = some p' →
      p.m.hash = p'.m.hash → k = k') :
    ∃ db', indexBlock db h (execBlock 0 ss) = some db' ∧
      (∀ (k : Nat) (p : Place), (places 0 ss)[k]? = some p →
        byHash db' p.m.hash = some (record h k p) ∧ byIndex db' h k = some (record h k p)) ∧
      (∀ x, x < 256 ^ 32 → (∀ p ∈ places 0 ss, p.m.hash ≠ x) → byHash db' x = byHash db x) := by
  have hby : ∀ (k : Nat) (p : Place), (places 0 ss)[k]? = some p →
      byHash (saveAll h db 0 (places 0 ss)) p.m.hash = some (record h k p) := by
    intro k p hk
    have := saveAll_hash h _ db 0 k p hf.2.2 hk (fun k' q hq e => hd _ _ _ _ hq hk e)
    rw [Nat.zero_add] at this
    unfold byHash
    rw [this]
  have hlen := hf.2.1
  refine ⟨_, indexBlock_exec db h ss hf.1, fun k p hk => ⟨hby k p hk, ?_⟩, fun x hx hne => ?_⟩
  · have hkl := length_of_get hk
    unfold byIndex
    rw [saveAll_index h hh _ db 0 (by omega) h k hh (by omega), if_pos (by omega), Nat.sub_zero, hk]
    exact hby k p hk
  · unfold byHash
    rw [saveAll_hash_other h _ db 0 x hx hf.2.2 hne]

/-- A message with a hash: gas limit 50000, gas used 30000. -/
def tx1 (h : Nat) (e : List UInt8) : Tx := ⟨true, true, [some ⟨h, 50000, false, 30000, e, [h]⟩]⟩

/-- A transaction of another kind. -/
def bankTx : Tx := ⟨true, false, [none]⟩

/-- A block: an executed transaction, one of another kind, one that reverted, one that was refused, one
with two messages. -/
def block1 : List Step :=
  [⟨tx1 7 [], .ok, 30000⟩, ⟨bankTx, .ok, 80000⟩, ⟨tx1 8 [1, 2], .ok, 30000⟩, ⟨tx1 9 [], .refused true, 0⟩,
    ⟨⟨true, true, [some ⟨10, 60000, true, 40000, [], []⟩, some ⟨11, 60000, false, 50000, [], [1, 2]⟩]⟩, .ok, 90000⟩]

/-- A second block: a transaction over the block's gas limit. -/
def block2 : List Step := [⟨tx1 12 [], .spent, 50000⟩]

/-- A chain of blocks 5 and 6; the others are empty. -/
def chain1 (h : Nat) : List Step := if h = 5 then block1 else if h = 6 then block2 else []

example : Fits block1 ∧ (places 0 block1).map (·.m.hash) = [7, 8, 10, 11] ∧
    (listing (execBlock 0 block1)).map (·.hash) = [7, 8, 10, 11] := by
  refine ⟨⟨by decide +kernel, by decide +kernel, by decide +kernel⟩, by decide +kernel, by decide +kernel⟩

theorem fits_chain1 (h : Nat) : Fits (chain1 h) := by
  unfold chain1
  split
  · exact ⟨by decide +kernel, by decide +kernel, by decide +kernel⟩
  · split
    · exact ⟨by decide +kernel, by decide +kernel, by decide +kernel⟩
    · exact ⟨by decide +kernel, by decide +kernel, by decide +kernel⟩

theorem places_chain1 {h k : Nat} {p : Place} (hp : (places 0 (chain1 h))[k]? = some p) :
    (h = 5 ∧ ((k = 0 ∧ p.m.hash = 7) ∨ (k = 1 ∧ p.m.hash = 8) ∨ (k = 2 ∧ p.m.hash = 10) ∨ (k = 3 ∧ p.m.hash = 11))) ∨
    (h = 6 ∧ k = 0 ∧ p.m.hash = 12) := by
  unfold chain1 at hp
  split at hp
  · rename_i h5
    left
    refine ⟨h5, ?_⟩
    match k with
    | 0 => exact .inl ⟨rfl, by cases hp; rfl⟩
    | 1 => exact .inr (.inl ⟨rfl, by cases hp; rfl⟩)
    | 2 => exact .inr (.inr (.inl ⟨rfl, by cases hp; rfl⟩))
    | 3 => exact .inr (.inr (.inr ⟨rfl, by cases hp; rfl⟩))
    | _ + 4 => cases hp
  · split at hp
    · rename_i h6
      right
      match k with
      | 0 => exact ⟨h6, rfl, by cases hp; rfl⟩
      | _ + 1 => cases hp
    · cases hp

theorem unique_chain1 : Unique chain1 := by
  intro h h' k k' p p' h1 h2 e
  have a := places_chain1 h1
  have b := places_chain1 h2
  omega

/-- **C86 (partial).** Whatever happens to the service, new blocks, stops and starts, as long as no write
fails and it is not started again on an empty index with blocks still to come: the index holds exactly the
Ethereum transactions of the blocks from its first start to the last block dealt with, each with what
became of it, under its hash and under its number. -/
theorem index_exact_partial (chain : Nat → List Step) (hf : ∀ h, Fits (chain h)) (hu : Unique chain)
    (lo : Nat) (hlo : lo < 2 ^ 63) (ops : List Op) (hc : Calm chain (start [] lo) ops) :
    lo ≤ (serveAll (ran chain) (start [] lo) ops).last ∧
    Exact chain (serveAll (ran chain) (start [] lo) ops).db lo (serveAll (ran chain) (start [] lo) ops).last := by
  have hi : Inv chain lo (start [] lo) := ⟨Nat.le_refl _, hlo, hlo, content_nil chain lo⟩
  obtain ⟨h1, h2, _, h4⟩ := inv_all hf hu ops _ hi hc
  exact ⟨h1, exact_of_content h4 hf (by omega)⟩

/-- Two blocks with a stop after the first, and another after a block without Ethereum transactions. -/
def ops1 : List Op :=
  [.header 5, .next true, .restart 6, .next true, .header 7, .next true, .restart 7, .next true]

example : Calm chain1 (start [] 4) ops1 ∧ (serveAll (ran chain1) (start [] 4) ops1).last = 7 ∧
    byHash (serveAll (ran chain1) (start [] 4) ops1).db 8 = some ⟨5, 2, 0, 1, 30000, true, 30000⟩ ∧
    byIndex (serveAll (ran chain1) (start [] 4) ops1).db 5 3 = some ⟨5, 4, 1, 3, 50000, false, 90000⟩ ∧
    byIndex (serveAll (ran chain1) (start [] 4) ops1).db 6 0 = some ⟨6, 0, 0, 0, 50000, true, 50000⟩ ∧
    byHash (serveAll (ran chain1) (start [] 4) ops1).db 9 = none := by
  refine ⟨⟨by decide, rfl, ⟨by decide, .inl ?_⟩, rfl, by decide, rfl, ⟨by decide, .inl ?_⟩, rfl, trivial⟩,
    by decide +kernel, by decide +kernel, by decide +kernel, by decide +kernel, by decide +kernel⟩
  · decide +kernel
  · decide +kernel

/-- With the index, the transaction at a number of a block is the one the block lists there. -/
theorem number_agrees (chain : Nat → List Step) (hf : ∀ h, Fits (chain h)) (db : DB) (lo hi h : Nat)
    (hx : Exact chain db lo hi) (h1 : lo < h) (h2 : h ≤ hi) (hb : hi < 256 ^ 8) (i : Nat) (hi' : i < 256 ^ 8) :
    txByIndex db h (ran chain h) i = (listing (ran chain h))[i]? := by
  have hl : listing (ran chain h) = (places 0 (chain h)).map (·.m) := listing_exec _ 0 0 (hf h).1
  unfold txByIndex
  cases hr : byIndex db h i with
  | none => rfl
  | some r =>
    obtain ⟨p, _, _, hp, e⟩ := hx.2.2 h i r (by omega) hi' hr
    subst e
    rw [hl, List.getElem?_map, hp]
    exact msgAt_place (chain h) (hf h).1 i p hp

example : Exact chain1 (serveAll (ran chain1) (start [] 4) ops1).db 4 7 ∧
    (txByIndex (serveAll (ran chain1) (start [] 4) ops1).db 5 (ran chain1 5) 2).map (·.hash) = some 10 := by
  refine ⟨?_, by decide +kernel⟩
  have h := (index_exact_partial chain1 fits_chain1 unique_chain1 4 (by decide) ops1
    ⟨by decide, rfl, ⟨by decide, .inl (by decide +kernel)⟩, rfl, by decide, rfl,
      ⟨by decide, .inl (by decide +kernel)⟩, rfl, trivial⟩).2
  rw [show (serveAll (ran chain1) (start [] 4) ops1).last = 7 by decide +kernel] at h
  exact h

/-- **C86 (partial).** Without the index, in a block none of whose Ethereum transactions has failed after
counting, the transaction at a number is the one the block lists there. -/
theorem events_agree_partial (ss : List Step) (hs : ∀ s ∈ ss, Sound s)
    (hn : ∀ s ∈ ss, s.fate = .spent → s.tx.ext = false) (i : Nat) :
    txByEvents (execBlock 0 ss) i = (listing (execBlock 0 ss))[i]? := by
  unfold txByEvents eventByIndex
  cases hq : search (hasIndex · i) 0 (execBlock 0 ss) with
  | none => rfl
  | some x =>
    obtain ⟨k, t, r⟩ := x
    dsimp only
    cases hc : counts r with
    | false => rw [if_pos rfl]
    | true =>
      rw [if_neg (by decide)]
      obtain ⟨ps, j, m, e1, e2, _, _, e5, e6, e7⟩ := search_exec ss 0 0 i k t r hs hn hq hc
      rw [e1]
      dsimp only
      rw [e2]
      show msgAt (execBlock 0 ss) k j = _
      rw [Nat.sub_zero] at e5 e7
      rw [e7]
      unfold msgAt
      rw [e5]
      dsimp only
      rw [e6]

example : (∀ s ∈ block1, Sound s) ∧ (∀ s ∈ block1, s.fate = .spent → s.tx.ext = false) ∧
    (txByEvents (execBlock 0 block1) 3).map (·.hash) = some 11 := by
  refine ⟨by decide +kernel, by decide +kernel, by decide +kernel⟩

/-! ## Where it does not hold -/

/-- **C86 does not hold: events.** After an Ethereum transaction that failed while its state was
committed, the events count one fewer than the block does: at number 1 the query gives the third
transaction, and the second is at no number. -/
theorem events_disagree :
    ∃ ss : List Step, (∀ s ∈ ss, Sound s) ∧
      (listing (execBlock 0 ss)).map (·.hash) = [7, 8, 9] ∧
      (txByEvents (execBlock 0 ss) 1).map (·.hash) = some 9 ∧
      ∀ i, (txByEvents (execBlock 0 ss) i).map (·.hash) ≠ some 8 := by
  let ss : List Step := [⟨tx1 7 [], .spent, 50000⟩, ⟨tx1 8 [], .ok, 30000⟩, ⟨tx1 9 [], .ok, 30000⟩]
  refine ⟨ss, by decide +kernel, by decide +kernel, by decide +kernel, fun i => ?_⟩
  match i with
  | 0 => decide +kernel
  | 1 => decide +kernel
  | 2 => decide +kernel
  | n + 3 =>
    have h : txByEvents (execBlock 0 ss) (n + 3) = none := by
      have hne : ∀ m : Nat, m < 3 → n + 3 ≠ m := by omega
      simp [txByEvents, eventByIndex, search, hasIndex, execBlock, exec, ss, tx1, Tx.eths, anteEvents, msgEvents,
        msgAttrs, listing, counts]
    rw [h]; exact fun e => nomatch e

/-- **C86 does not hold: a restart.** Started again on an index that is still empty, the service takes up
at the newest block: the Ethereum transactions of the blocks that came in between are not found. -/
theorem skipped_on_empty :
    ∃ ops : List Op, (∀ op ∈ ops, op ≠ .next false) ∧
      (serveAll (ran chain1) (start [] 3) ops).last = 6 ∧
      (places 0 (chain1 5)).map (·.m.hash) = [7, 8, 10, 11] ∧
      byHash (serveAll (ran chain1) (start [] 3) ops).db 7 = none ∧
      byIndex (serveAll (ran chain1) (start [] 3) ops).db 5 0 = none :=
  ⟨[.header 4, .next true, .restart 5, .header 6, .next true], by decide +kernel, by decide +kernel,
    by decide +kernel, by decide +kernel, by decide +kernel⟩

/-- **C86 does not hold: a failed write.** Once the index holds a later block, a block whose write has
failed is never indexed: whatever the service goes through, stops and starts included, none of its
numbers is found. -/
theorem failed_write_is_final (chain : Nat → List Step) (hf : ∀ h, Fits (chain h)) (s : Service) (h0 : Nat)
    (hl : Lost h0 s) (ops : List Op) (ho : ∀ op ∈ ops, Small op) (i : Nat) (hi : i < 256 ^ 8) :
    byIndex (serveAll (ran chain) s ops).db h0 i = none := by
  have h := (lost_all hf ops s hl ho).2.2.2.2.2 i hi
  unfold byIndex
  rw [h]

/-- The service after a failed write of block 5 and an indexed block 6. -/
def afterFailure : Service := serveAll (ran chain1) (start [] 4) [.header 6, .next false, .next true]

example : Lost 5 afterFailure ∧ (places 0 (chain1 5)).length = 4 := by
  have hg : afterFailure.db = [(indexKey 6 0, .hash 12), (hashKey 12, .entry ⟨6, 0, 0, 0, 50000, true, 50000⟩)] := by
    decide +kernel
  refine ⟨⟨?_, by decide +kernel, by decide +kernel, by decide +kernel, ⟨6, by decide +kernel, by decide, by decide⟩,
    fun i hi => ?_⟩, by decide +kernel⟩
  · rw [hg]
    intro e he
    rcases List.mem_cons.1 he with rfl | he
    · exact .inr ⟨6, 0, rfl, by decide, by decide⟩
    · rcases List.mem_cons.1 he with rfl | he
      · exact .inl ⟨12, rfl⟩
      · exact (List.not_mem_nil he).elim
  · rw [hg]
    apply KV.get_eq_none.2
    intro e he hk
    rcases List.mem_cons.1 he with rfl | he
    · have := (indexKey_inj (by decide) (by decide) (by decide) hi hk).1
      exact absurd this (by decide)
    · rcases List.mem_cons.1 he with rfl | he
      · exact hashKey_ne_indexKey _ _ _ hk
      · exact (List.not_mem_nil he).elim

/-- **A block that stops the indexer.** A transaction with the Ethereum option and a message of another
kind, which the ante handler refuses, but whose error text holds the words of the block gas limit, makes
the indexer panic: it takes the transaction for one that counts and casts each message. -/
theorem refused_text_panics :
    ∃ (t : Tx) (r : Result), t.ext = true ∧ r.code ≠ 0 ∧ r.events = [] ∧ ∀ db h, indexBlock db h [(t, r)] = none :=
  ⟨⟨true, true, [none]⟩, ⟨5, true, 0, []⟩, rfl, by decide, rfl, fun _ _ => rfl⟩

end EthIndex
