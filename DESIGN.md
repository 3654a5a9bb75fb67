# Formal model of helios-core: design

## Method

The model is written in Lean 4 (core library first, single Mathlib modules where needed). Every definition
cites the Go file and lines it models and says what it simplifies. Property theorems live in files named
`Props.lean` (or `*Props.lean`), apart from helper lemmas, each next to an `example` that shows
its hypotheses are met by a concrete case.

## Trusted base

* Lean's kernel; axioms `propext`, `Classical.choice`, `Quot.sound` only (checked with `#print axioms`).
* The reading of the Go sources: the code is not run here. Nothing else ties the model to the code.
* External functions are parameters: SHA-256 (`H : List UInt8 → List UInt8`), bank keeper, EVM calls. What is assumed
  about each is in the statement of the theorem that uses it.
* Go maps iterated in sorted order are modelled as ordered lists; integers are unbounded unless the property is about wrap-around.

## The log of wrong programs

`seeded/LOG.jsonl` has one line per edit. `theorems_failed` was filled in from the lines of the compiler's errors, going up to the nearest
declaration. Where the compiler reports an error at the comment before a theorem (it does so for some theorems proved by a term such as `rfl`), this
names the declaration before the one that failed. The lines for C117 have been corrected; earlier lines have not been checked for this. It does
not affect whether an edit was rejected. Where only helper lemmas are named, the build stopped before the property files; the note says so in
the lines that were annotated. A line with the note SURVIVED names the theorem that was tightened, or a later
line for the same edit does.

## Plan per property

* **C01 memiavl tree behaves as a key/value map.** `Verif/MemIAVL/Tree.lean` models MemNode trees and `setRecursive`/`removeRecursive`/rebalancing as total functions. Refinement to `Key → Option Val` (spec: last write wins over an operation list). Proof by induction on the tree under the search-tree invariant, then on the history.
* **C02 memiavl tree stays ordered and balanced.** Invariant `WF` (search order, branch key = min of right, stored size/height right, balance within 1) preserved by every operation; depth bound through a Fibonacci lower bound on the number of leaves.
* **C03 memiavl Get index and GetByIndex are inverse rank/select operations.** `getIndex`, `getByIndex` modelled; proved equal to rank/select on the sorted list of leaves.
* **C04 memiavl range iteration returns exactly the requested keys in order.** Iterator stack machine modelled step by step with its bounds and direction; proved to produce the filtered leaf list (or its reverse).
* **C05 memiavl Copy isolates readers from later writes.** Separate heap model: node ids in a store, `Mutate` either clones or writes in place. Invariant: everything reachable from a copy has version ≤ cowVersion, so it is never written.
* **C06 memiavl snapshot on disk answers queries like the tree it was written from.** Snapshot writer as recursive function emitting leaf/branch arrays; persisted navigation functions as in the code; proof that navigation from the root reproduces the tree.
* **C07 memiavl export/import round trip.** Exporter = post-order list; importer = stack machine; proof `import (export t) = t`.
* **C08 memiavl root hash commits to the contents.** Byte-level `writeHashBytes` with an abstract hash function `H`; proof of injectivity up to an exhibited collision of `H`.
* **C09 memiavl membership proofs verify.** Existence proof model (leaf op + inner ops as prefix/suffix bytes) with abstract `H`; completeness and collision-soundness by induction on the path.
* **C10 memiavl WAL index and version conversions agree.** Arithmetic of walIndex/walVersion; direct.
* **C11 memiavl reload reproduces the committed state from any snapshot.** Abstract DB: snapshots at versions, log of change sets, load = snapshot + replay; refinement to the fold of the change sets.
* **C12 memiavl loading a target version never silently returns another version.** CatchupWAL decision logic modelled; the code returns success when the log is empty; negation by witness and partial theorem.
* **C13 memiavl pending change sets merge as one commit.** pendingLog merge by store name modelled; replay of merged entry equals sequential application.
* **C14 memiavl pruning keeps recent versions loadable.** pruneSnapshots modelled over the descending list of snapshot versions.
* **C15 memiavl log opening cuts a corrupted tail.** truncateCorruptedTail modelled on byte lists; expected to fail because of a comparison with the remaining slice; negation plus partial.
* **C16 memiavl store upgrades apply as described.** ApplyUpgrades modelled on an association list of stores.
* **C17 EVM state: revert restores everything observable.** `Verif/EVM/StateDB.lean`: objects, caches, journal, dirty map, revisions, access list, in full. Simulation of a specification that saves whole pictures: every entry undoes its change on the level of pictures, induction over operations with nesting.
* **C18 EVM state: commit writes exactly the final state.** Commit loop over the sorted dirty map; invariant that the dirty map counts the journal; result compared with the specification's picture; two witnesses where it fails.
* **C19 EVM access list follows EIP-2929.** Index-linked slots refined to sets; stated through the operations that were not reverted (`survivors`).
* **C20 EVM refund counter and snapshot identifiers are consistent.** Stated through `survivors` and `openIds`; ascending identifiers invariant.
* **C21 bridge: every pending withdrawal is in exactly one place.** `Verif/Hyperion/Pool.lean`: withdrawals, fee index, batches, token links, bank, sequences as one step function over all messages, attestation effects and end-of-block cleanups. Invariant `Inv` by induction over operations; spec functions in `PoolSpec.lean`.
* **C22 bridge: a withdrawal is paid out or refunded at most once.** Ghost lists `finalized` and `lost` in the same machine; refunds specified by `RefundsExactly` on balances. The code lets a batch time out by a projected height, so paid and refunded is possible: witness.
* **C23 bridge: supply and fee escrow are conserved.** Supply per denomination compared with what is issued and pending, as an invariant of the same machine; fee escrow as `Safe`.
* **C24 bridge: an event is applied only with the required voting power.** `Verif/Hyperion/Attest.lean`: claim messages, tally, pruning, marks and resets with an environment (powers, bonded set, keys, registry) that may change at every operation; operations are decomposed into small steps and invariants proved for these. Threshold theorem for all histories; witnesses for departed voters, rounding and early double votes.
* **C25 bridge: at most one claim per event nonce takes effect.** Same machine: applied claims have distinct keys (no resets, late heights); two majorities overlap by a counting lemma. Witnesses for moving power, double voters, resets of another chain, change of block time, early heights.
* **C26 bridge: batch nonces and transaction ids are never reused.** Strictly increasing sequence invariant on the same machine.
* **C27 bridge: batches take the highest fees first.** pickUnbatchedTX modelled as descending fee iteration.
* **C28 bridge: store keys of different objects never collide.** All 34 key builders as byte lists; injectivity through a parser; byte ranges of prefix.NewStore and PrefixRange compared with the kinds of objects they should select.
* **C29 bridge: skipped event nonces can be listed and cleaned.** The store as a finite map from byte keys; histories of storing, removing and cleaning; listing over the byte range the code uses.
* **C30 bridge: normalised validator powers are sound.** Normalisation arithmetic over lists of naturals.
* **C31 bridge: external data results need the voting threshold.** executeExternalDataTxs loop modelled; accumulator is not reset between requests: negation by witness plus partial.
* **C32 fee market: base fee update follows EIP-1559.** CalculateBaseFee over scaled integers (18 decimals, the rounding of LegacyDec), bounds and monotonicity.
* **C33 vesting: merging schedules adds them.** Periods as lists of (length, amount); read function; pointwise sum theorem by induction on the merge.
* **C34 vesting: intersecting schedules takes the minimum.** Same for the conjunction with minima, using monotonicity of cumulative amounts.
* **C35 vesting: clawback takes exactly the unvested coins.** ComputeClawback on top of C33/C34.
* **C36 epochs: epoch numbers follow block time.** BeginBlocker transition on EpochInfo; invariants over block time sequences.
* **C37 token factory: denominations identify creator and name.** String functions over character lists with split/join on '/'.
* **C38 token factory: only the current admin changes a denomination.** State machine of the token factory messages with ghost supply history.
* **C39 erc20: pair registry is a bijection.** Three maps (pairs, by denom, by address) and their operations; invariant.
* **C40 erc20: converted coins are fully backed.** Conversion state machine with an arbitrary token-contract step; escrow invariant from the balance checks.
* **C41 memiavl: cached root hashes are never stale.** Same heap model as C05; cells carry an optional cached hash; invariant: a cached hash is the hash of the represented subtree.
* **C42 memiavl: recorded node versions follow the history.** Leaf list with versions; refinement to a map key -> (value, version of last write); parent/child version order invariant.
* **C43 memiavl: initial version.** The upgrade loop commutes with moving the version of every (empty) tree; equality with the database created with that initial version.
* **C44 memiavl: latest version without loading.** Corollary of the database invariant (C10/C11).
* **C45 bridge: no bridge operation stops the chain.** `step` returns `panic` wherever the code panics; shown unreachable from the invariant except for one operation, with a witness.
* **C46 bridge: timeouts take everything overdue and nothing else.** Cleanup loops of the same machine; completeness and no-overreach stated on pool and batches.
* **C47 bridge: genesis export keeps pending withdrawals.** `Verif/Hyperion/Genesis.lean`: export, import, on top of the pool machine. The import does not rebuild the index and writes the id counter under another key: witnesses and a partial theorem.
* **C48 bridge: searches for slashing and resets touch exactly the chain's objects.** Byte ranges of the searches compared with the objects they should select, over all well-formed keys.
* **C49 bridge: votes are pooled only for claims with the same effect.** `Verif/Hyperion/Claims.lean`: the hashed strings byte for byte (decimal numbers, separators, the text of member lists); field-by-field injectivity, and witnesses for fields left out of the string.
* **C50 bridge: last observed and skipped nonces follow the applied events.** Invariant over the small steps of the voting machine.
* **C51 bridge: enough votes always take effect at the end of the block.** Invariant: every vote sent is stored or its nonce has been applied; the tally is complete.
* **C52 bridge: requested validator sets follow the current set.** Model of createValsets/pruneValsets over blocks with arbitrary powers; PowerDiff against a sum over addresses; invariant on nonces.
* **C53 bridge: the answer to an external data request is the same on every node.** Iteration order is a parameter of the model; negation by witness on ties; independence proved when one result has strictly more reporters.
* **C54 bridge: fees of external data requests are accounted for.** Event log of asked/refunded/rewarded/cancelled/answered; invariant relating log, pending requests and held coins.
* **C55 EVM transactions pay exactly gas used times the EIP-1559 price.** `Verif/FeeMarket/Tx.lean`: the ante handler's checks and deductions in order, ApplyTransaction with an arbitrary execution outcome (gas left, refund counter, failure, effect on the accounts), the refund; the price is compared with a separate specification.
* **C56 EVM transactions are never replayed.** Histories of deliveries and arbitrary other steps; invariant that recorded (sender, nonce) pairs lie below the account nonce.
* **C57 EVM gas used is bounded.** Arithmetic on the charged gas, for every outcome of an execution.
* **C58 Cosmos transactions pay between the base fee and their offer.** `Verif/FeeMarket/CosmosFee.lean`: both fee checks with decimal rounding; witness for a base fee below the minimum gas price.
* **C60 versiondb: change set files survive a cut at any byte.** `Verif/VersionDB/ChangeSet.lean`: readers over byte lists with Go's end-of-file errors; round trip by induction, cuts by the fact that a reader that succeeds on a prefix succeeds the same way on every extension.
* **C59 versiondb: reads at a version show exactly the state after that block.** `Verif/VersionDB/Store.lean`: the column family as entries in the order of the modelled comparator on bytes; reads as seeks in this order; iterators as walks over the visible rows. Refinement to a fold over the blocks.
* **C61 versiondb: the external sorter sorts, whatever the chunks and the scheduling.** `Verif/VersionDB/Sorter.lean`: item codec, comparison, delta encoding and chunking as functions; sorting a chunk, the order of the files and the choice among equal heap entries left open (a relation). Go's container/heap and sort.Slice are trusted to do what they promise.
* **C62 bridge: who is slashed for missing confirmations.** `Verif/Hyperion/Slashing.lean`: the two slashing passes over an environment of validators, requests, batches and confirmations; exact description of one block, uniqueness over histories, witnesses for what fails.
* **C63 EVM: only instruction starts are jump destinations.** `Verif/VM/Analysis.lean`: the bitmap as bytes, filled by the same loop; the specification is the set of instruction starts, defined inductively from the code.
* **C64 EVM: memory and call gas.** `Verif/VM/Gas.lean`: gas functions over naturals with explicit 64-bit wrap-around where Go does not check; law of the memory fee, path independence by induction, exact share of a call.
* **C65 EVM: storage writes are charged by their effect.** `Verif/VM/SStore.lean`: the gas function of SSTORE, slots with original and current value, histories with snapshots; potential function for the cost, invariant for the refund counter.
* **C66 EVM: every execution ends, and its result is determined.** `Verif/VM/Op.lean`, `World.lean`, `Interp.lean`: the complete London interpreter (all instructions, gas functions, calls, creations) with fuel; facts about each instruction (`InterpLemmas`, `DynLemmas`, `StepLemmas`), then induction on the fuel: every round costs gas. Precompiled contracts are functions of the environment.
* **C67 EVM: no code makes the machine panic.** An instance of a general rule (`FrameRule.lean`): a relation kept by every instruction and by entering and leaving calls is kept by every execution. Here: access list grows, refund counter covers cleared slots.
* **C68 EVM: static calls change nothing.** Instance of the same rule with the relation 'in read-only frames all observations are equal'; witness for the violation through a precompiled contract.
* **C69 EVM: failed calls leave no trace.** Case analysis of the five entry points for an arbitrary runner.
* **C70 EVM: executions neither create nor lose coins.** Instance of the rule: sum of balances plus what was burnt is constant; balances stay nonnegative.
* **C71 EVM: code cannot take from wallets.** Instance of the rule with a relation for all wallets other than sender and running contract; a wallet that is called has no code to run.
* **C72 EVM: every instruction does what its description says.** Pure instructions against definitions on naturals and integers (`ArithProps.lean`); for all others a relation between the machine before and what the instruction does (`Post`), with memory as an unbounded row of bytes; proved instruction by instruction.
* **C73 EVM: compiled expressions compute their value.** A small compiler from expressions; its code, wherever it stands, pushes the value for its cost (induction over expressions, composition of runs), then the call as a whole.
* **C74 Addresses as text are read as the address they stand for.** Bech32 with its checksum as a linear map on 30-bit words; typos by linearity and a kernel check of all distances; the helpers case by case; counterexamples are concrete addresses.
* **C75 Scheduled calls: the deposit is the owner's and comes back.** State with balances, records and indexes; invariant over histories; the deposit is followed from creation to cancellation.
* **C76 Scheduled calls: the queue holds exactly the calls that wait.** Invariant linking queue and records, over histories without price changes of waiting calls; counterexample for those.
* **C77 A whole Ethereum transaction charges what it says and nothing else.** Ante handler, virtual machine, commit, developer share and refund composed into one function; the frame rules of C70 and C71 are extended to accounts that may not be created at (`IdleRule.lean`), then each ending of a transaction is treated.
* **C78 No Ethereum transaction is delivered twice.** From C77: after an accepted transaction the sender has the next nonce, and nobody's nonce is lowered; induction over histories.
* **C79 Developer shares belong to the account that deployed the contract.** Every operation is one of five changes; each invariant is checked for these; counterexample for the index of withdrawers.
* **C80 Calls of precompiled contracts are part of the transaction.** A second model of the EVM state with the cached context as a layer over the store; refinement to one value with snapshots, for transactions whose calls succeed and whose contracts report what they change; counterexamples for failed calls, contracts that commit in the middle and contracts that do not report.
* **C81 Coins behave as ERC-20 tokens.** A model of the token contract over the bank's balances and the authz grants; refinement of each call to EIP-20 for one token, frame for all other tokens, induction over histories for spending and for the replay of logs; counterexamples for zero amounts, approvals of zero, expiry shared between coins, and Approval logs.
* **C82 Precompiled contracts act for an account only with its consent.** A model of every state-changing method as a decision on origin, caller, arguments and grants that yields a message; the effect of messages is a parameter. Frame rules for accounts and grants, exact effect of the grant methods, a potential argument over histories for the limits; counterexamples for approvals by contracts, unjail and the distribution contract.
* **C83 A gas estimate is the least gas the transaction works with.** The search as passes over 64-bit ends with the run of the transaction as a parameter; an invariant brackets the ends, a halving argument bounds the passes; counterexamples for a limit lowered to the sender's funds and for a search that never ends because the sum of its ends wraps around.
* **C84 Ethereum transactions enter the chain only as themselves.** Messages as trees; the limiter is characterised exactly (nothing forbidden at any depth, cost of every ladder into delegated executions at most five), routes and envelope checks as decisions; counterexamples for siblings counted as nesting, other coins in the fee and messages carried by proposals.
* **C85 Queries for logs give exactly the matching logs.** Filter, bloom filter (bits of addresses and topics are a parameter) and scan over heights as functions on a chain of executed transactions; refinement to picking the matching logs in order; counterexamples for ranges past the last block, dropped blocks, logs of scheduled calls asked for by hash, and unknown hashes.
* **C86 Every Ethereum transaction is found by its hash and by its place.** Execution emits events; parser, database with byte keys, indexing service with restarts and failed writes as functions; the index is shown to hold exactly the places of a specification written without events, by invariant over histories; counterexamples for a restart on an empty index, a failed write, the events after a failed commit and an error text that makes the indexer panic.
* **C87 Receipts tell what became of a transaction.** Receipts by hash over the exact index equal an ideal receipt computed from the block; receipts of a block by their map and loop; counterexamples for their status, gas and repeated transactions.
* **C88 An Ethereum transaction and its message stand for the same thing.** Transactions of the three kinds and their messages as data with texts for addresses and keys; wrapping, unwrapping and validation as functions; round trip for every decoded transaction, exact conditions for success, error and crash; counterexamples for one form per transaction and for chain numbers of more than 256 bits. Hash and capitals of addresses are parameters.
* **C89 A node sends what its user asked for.** Filling in, signing (a parameter) and sending as functions over the messages of C88; the transaction sent is compared with the arguments field by field; the next nonce against a specification by the set of nonces used; counterexamples for long mempools, other transactions, sending again and the limit on fees.
* **C90 The suggested gas price is enough for the next block.** The suggestion with Go's int64 arithmetic over the fee market already modelled; the next base fee is bounded by rational arithmetic on naturals; counterexamples by running the model from the parameters a chain starts with.
* **C91 The history of fees tells what the blocks had.** Sorting is any function that sorts; the loop over percentiles is shown to give the tip of a declarative specification; the cache by invariant over histories of blocks and requests; counterexamples for mixed percentiles, percentiles out of order, the base fee after the last block, block zero and great counts.
* **C92 A signature over typed data stands for one order.** JSON values and tables of types as data; making the table, flattening the messages and encoding as recursive functions; the hash is a parameter given on some strings without collision; type texts are shown to determine the tables, and by induction on depth the words to determine the values. Counterexamples: a list that mixes numbers and text, and the granter of the fee.
* **C93 Polling filters give each event once and do not disturb each other.** The API, the goroutines of filters, the two loops of the event system and the publishing goroutines as one transition system; a schedule is a list of steps. Each event is at one place (invariant), which gives soundness and at most once for all schedules, and order while the topic was never closed; who may close a topic is a second invariant. Counterexamples by running schedules.
* **C94 Tokens sent over IBC are never lost.** On top of the model of conversions (C40), with a standard token that can be paused: transfers, packets in both directions, vouchers, the accounts of channels and vesting locks as one transition system. Invariant: coins are covered by tokens of the module, the account of a channel covers vouchers and packets under way; exactness of each step for the sum of coins and tokens; liveness of refunds and returns from the invariant. Counterexamples by running.
* **C95 Equal stakes count equally, as the weight of their asset says.** Assets by denomination and delegations with weighted amounts as exact fractions; the staking module of the changed SDK, whose source is not in the repository, is assumed to do what the arguments of its call say. Weights positive and fairness by invariants over histories, with an exact condition for updates that come out even. Counterexamples by running, one for all numbers of updates by induction. Arithmetic with float64 is replaced by whole numbers (checked by running, not proved).
* **C96 A registration with a bridge is one validator's own, and ends when they leave.** The four maps of one bridge as association lists with the messages as steps. Exact effect of each message, who may change what, and fees only of the registered for all histories; agreement of the maps by invariant for careful histories; the lowest fee by refinement of the loop to the least of a set; the listing and its panic exactly. Counterexamples by running histories of a few messages.
* **C97 Limits on requests hold, and cannot be evaded.** The tables of the three limiters, the set of connected clients and the phases of open requests as one transition system with clocks in the operations; a schedule is a list of operations and yields a list of events. Invariant: each table holds exactly the times of the events of its client within the window; limits and exact conditions of refusal follow for all schedules with a clock that does not go back. Evasions are proved for every state or number where that is possible, otherwise by running a schedule.
* **C98 Cached answers are the method's own and recent.** The cache as a list in order of last use, requests that wait for methods, and a clock in the operations. Invariant: each entry is the last answer with its time; an entry is missing only if it expired or as many others as there is room for were used since, which gives when the cache answers. Order of answers by a second invariant for schedules without two calls of the same question at a time. The text of a question is shown to determine method and arguments. Counterexamples by running, the stampede for all numbers by induction.
* **C99 WebSocket clients get their answers and exactly their notifications.** JSON values as an inductive type; reading of requests and criteria, and the way of an answer through float64, as functions on it, related to the meaning of criteria stated on the JSON itself. Connections, subscriptions and goroutines on the bus as a transition system; what a goroutine wrote is related to a subsequence of the events by an invariant over all schedules. Lost events, leaks and wrong headers by running schedules, piling up of goroutines for all numbers by induction.
* **C100 Allowances for IBC transfers bound what contracts send.** Grants as stored by authz, with allocations, limits and expiry; a transfer in two steps with a stack of transfers under way, so that calls made by token code between them are part of histories. Exact effect of each method on what is left; when a transfer begins, as an equivalence. Conservation over all histories (sent, left, charged and taken back at most consented) by an invariant that also says that a transfer under way still matches the stored grant, which holds while nothing disturbs it; counterexample with token code that calls back. Revocation and expiry by invariants.
* **C101 Pages of blocks and transactions show the whole list.** Loops over blocks and transactions as recursive functions with counters and wrapping positions, related to drop and take on the whole list by induction; the search for blocks by an invariant (what was found is a beginning of the chain, and either all of it or enough Cosmos transactions). Reading while the chain grows by induction over the pages. What is on no page is proved for all chains with the property that hides it.
* **C102 The history of bridge transfers is kept and shown.** The archive as a map from account and index; refinement to the filtered list of everything stored, for all histories; order of keys from decimal digits. The query's loops related to drop and take. What is on no page, and what is on every page, for all histories.
* **C103 Access control and built-in contracts go by address.** A transaction as a list of steps (call in four ways, deploy, return) over a stack of frames, the table of built-in contracts and a log of what ran. An invariant says what the table may hold, so that what is looked up right after the hook depends on the address alone; every entry of the log was allowed by the policy. Texts of addresses are lists of characters, with the capitals as a parameter; lists by text and lists by address agree on entries written as the chain writes them, and for every address there is an accepted entry that is never matched.
* **C104 The standard built-in contracts answer as Ethereum's.** Inputs are lists of bytes; getData with its wrapping sum and its panicking slice. The price of powers is proved equal to the formula of EIP-2565 on the unbounded numbers (capped), so that whoever can pay has lengths that neither wrap nor panic; then the answer is characterised by its length and its value as a number. Curves, hashes and the recovery of keys are parameters.
* **C105 A bridge is changed only by those in charge of it.** The bridges' settings and records beside the pool of withdrawals of C21; one step per message. A frame lemma for every message (only the bridge named changes), from which a bridge stays as it is through any history in which neither the authority nor its initializer signs, by induction. The effects message by message; cancelling is related to the clean-up of C21's model, so that its theorems hold here. Minting, burning, deleting and the whitelist fall short of the property: general theorems say how.
* **C106 What scheduled calls did can be looked up.** The archive store as a list of entries under texts, the old store under numbers, one step per event. Texts of different kinds of keys are proved different, those of the index by call up to concatenation; from this, by induction over the history, what each key leads to in terms of the log of events. Pages are sorted by text and cut. The property fails in several places, each proved in general or by a case: foreign transactions on the pages of a call, order by text, receipts never shown, words read as hashes, what came before the switch lost.
* **C107 Creating a token gives its creator exactly what they asked for, once.** The state is descriptions, coins, contracts, the two maps of the registry and the pictures. The built-in contract's steps are modelled in their order, with what has been written when it ends early. Acceptance is decided by comparison with a specification of the arguments; the effect is computed; once-only, the supply, the registry and the pictures are invariants over histories by a case rule for all operations. Taking back is proved by putting the creation into the model of C80 without the registration that the other contracts make.
* **C108 Who grants to a vesting account gets the unvested coins back.** On top of the account of C33-C35: accounts, balances, stakes, marks of governance and time, with one function per message, hook and bank operation. That unvested coins stay is an invariant over all histories, by cases on the operation, using the theorems on locked coins and added grants of C35. What each message accepts is decided by equivalences; the negations about other coins and about two proposals are witnessed.
* **C109 A proposal made from a contract costs what it says, and governance acts only as itself.** One function per conversion, for the route and for the execution of a list of messages; the state is balances, settings and the open proposals. Acceptance, the cost and panics are decided by comparison with a specification over numbers, routes by one over texts, execution by a relation between states. That deposits are there is an invariant over all histories without messages that pay from the governance account; the unrestricted statements about cost, about whose coins are taken and about deposits are refuted by witnesses, the second for every account and amount.
* **C110 Validators are punished only for signatures the chain did not ask for, and once.** The archive of checkpoints as a list of pairs of bridge and hash beside a ghost list of the items filed, with hash and recovery of signers as parameters. That every item filed is archived under its bridge is an invariant of histories without restart, from which validators honest for each bridge are safe; that nothing else is archived is another, from which the guilty can be convicted. The unrestricted statement and that evidence counts once are refuted: in general for items of another bridge, after a restart, and for repeated evidence, and by a concrete chain.
* **C111 A block asked for by number, word or hash is the block answered.** Both readers over lists of characters, with the parsers of Go's strconv, of hexutil and of the cast library they use, and the look-up over a range of heights. That digits are read as the value one learns at school is proved by induction over the text against a separate positional value; agreement of the two readers, the look-up by number and by hash, and what is refused as characterisations. The second half is refuted in general: every text without the prefix is accepted, and mistyped words are the first block.
* **C112 Contracts get the hashes of the last 256 blocks.** Headers with all fields, the headers kept by the staking module with its pruning loop over histories of blocks, GetHashFn and the instruction. That what is kept belongs to the block of its height is an invariant; that the last 256 are kept is an induction over the blocks that follow. What the context holds of a header is a parameter: with whole headers the property is proved, with those of version 0.50 of the SDK every answer is shown to be zero.
* **C113 Hardware wallets get the host's commands and the host gets their answers.** The packets sent for a command and the loop that reads an answer, over lists of bytes and of packets. The device's side is a separate specification: it joins numbered packets, reads length, command and path, and may answer in any packets of 64 bytes that carry the answer, with any filling. That commands, paths and hashes arrive is a round trip by induction over the bytes; that answers arrive is an induction over the packets. That a refusal is an error is refuted in general: the status does not influence the result.
* **C114 An export for a new chain from height zero succeeds and loses no coins.** The preparation of a state for height zero, step by step, over lists of validators and delegations and the reference counts of the distribution module's historical rewards. The two lines that differ from the SDK's own version of the function are a parameter. That the code never succeeds with a validator, and panics with a delegation, is proved in general; for the repaired lines the coins are conserved and everyone is paid (induction over the withdrawals), and every delegation starts at a period that has a record (invariant of the loop over delegations).
* **C115 Logs come back from their records, and valid records stand for one log each.** Logs with bytes and their records with texts, the conversions both ways with hexadecimal reading and writing digit by digit, and the two validations. The round trip is an induction over bytes for any spelling of the digits; validation is characterised for records of logs. That valid records stand for one log each is refuted by two of them, and in general: texts of topics do not matter, and texts of hashes are cut at the first error.
* **C116 A schedule of forks that is accepted is in order, and is set once.** The configuration as a function from forks to blocks, the loop that checks the order with its memory of the last fork that counts, and the setter. That the loop accepts exactly schedules in which every two forks are in order is an induction over the list of forks, with the memory generalised; from it follows that an active fork has all earlier ones active.
* **C117 Lists of proposals come page after page, as the filter asks.** Filters as lists of characters, split at separators, and the request as a fold over the parts; the governance module is a parameter from requests to lists of proposals. That parts add up follows from a law of splitting joined texts, by induction; the numbers of statuses are compared with their decimal value; the loop that formats is characterised by induction over the list.

## Where the code disagrees with a property

Each item is a theorem (a concrete witness checked by the kernel) in the file named.

* `MemIAVL.C06_persisted_getByIndex_wraps` (SnapshotProps): `GetByIndex` on a persisted tree converts the index to 32 bits, so an
  index beyond 2^32 returns a leaf instead of nothing.
* `MemIAVL.C05_copy_of_unsaved_tree_not_isolated` (HeapProps): `Tree.Copy` accepts a tree with unsaved writes; nodes of the
  unsaved version are above the copy-on-write watermark, so later writes through the original change the copy.
* `MemIAVL.C12_target_beyond_latest_returns_older` (DBProps): `CatchupWAL` returns early when there is nothing to replay, before it
  checks the target, so `Load` of a version that does not exist yet succeeds at an older version.
* `MemIAVL.C12_rollback_to_oldest_snapshot_refused`: `LoadForOverwriting` to the oldest kept snapshot fails in `TruncateBack`.
* `MemIAVL.C11_failed_change_poisons_the_log`: `ApplyChangeSets` records the change before it checks the store name.
* `MemIAVL.C11_upgrades_need_to_come_first`: a log entry replays upgrades before change sets whatever the order of the calls was.
* `MemIAVL.C11_snapshot_needs_clean_state`: a rewrite started with uncommitted changes writes them under the committed version.
* `MemIAVL.C11_crash_while_linking_blocks_rewrites`: a leftover `current-tmp` link is never removed.
* `MemIAVL.C11_async_snapshot_overtakes_log`, `MemIAVL.C11_async_stale_directory`: with the asynchronous log a snapshot can be ahead
  of the log when the process dies; the log then refuses the next entry, or the next rewrite fails.
* `MemIAVL.C13_duplicate_names_reorder`: naming a store twice in one call and again in a later one reorders changes in the log.
* `MemIAVL.C15_tail_as_long_as_the_rest_not_cut` (WalFileProps): `truncateCorruptedTail` compares the position reached with the
  length of what remains, so a damaged tail exactly as long as the good part is left in place and the log does not open.
* `MemIAVL.C15_zero_tail_accepted`: zero bytes after the last entry parse as empty entries and are kept.
* `MemIAVL.C16_transient_conflict_accepted` (UpgradeProps): `ApplyUpgrades` checks names once at the end, so a list that adds an
  existing store and renames one of the two afterwards is accepted.
* `MemIAVL.C43_second_call_splits_versions` (InitVersionProps): trees made between two calls of `SetInitialVersion` keep the first
  one; the commit then has trees at another version than the store, and a reload gives other trees.
* `MemIAVL.C44_empty_store_reports_phantom_version`: `GetLatestVersion` of an empty store with initial version n > 1 is n - 1, not 0.
* `MemIAVL.C44_async_behind_snapshot`: with the asynchronous log it can be lower than the version a load opens.
* `EVM.recreated_account_not_written` (EVM/StateDBProps): `resetObjectChange.Dirtied` is nil, so an existing account replaced by
  `CreateAccount` and not changed afterwards is not written by `Commit`.
* `EVM.selfdestruct_at_funded_address_fails`: a contract created where a plain account existed and destroyed in the same transaction
  makes `Commit` fail ("only smart contracts can be self-destructed").
* `Hyperion.withdrawal_can_be_lost` (Hyperion/PoolProps): for a coin of this chain a withdrawal locks coins in the module; a deposit
  of that token with a smaller recorded locked amount lets the later refund fail after the withdrawal was removed from the pool.
* `Hyperion.refunded_and_executed` (PoolProps2): abci.go 273-291 cancels batches by the projected counterparty height, although the
  comment above the cleanup says projecting "could cause a double spend"; a late execution claim of a cancelled batch is ignored.
  Pausing the chain also cancels batches early.
* `Hyperion.first_deposit_issues_more`: the first deposit of an unknown token mints one unit more (tokens.go 218-294).
* `Hyperion.blocked_orchestrator_panics`: an executed batch reported by an account that cannot receive coins panics.
* `Hyperion.genesis_forgets_waiting`, `Hyperion.genesis_reuses_ids` (GenesisProps): import does not rebuild the fee index, and stores
  the id counter under `GetLastTXPoolIDKey` while `AutoIncrementID` reads `KeyLastTXPoolID`: ids start at 1 and overwrite withdrawals.
* Not stated as theorems: the profit check before a batch counts the lowest fees (forward iterator) while the batch takes the
  highest; `MsgSendToChain.ValidateBasic` wants amount and fee in one denomination while the keeper wants the fee in ahelios;
  msg_server_testnet.go 70/313/882 can reset the batch nonce counter.
* `Hyperion.skipped_never_listed`, `Hyperion.skipped_clean_does_nothing`, `Hyperion.skipped_list_of_all_chains` (SkippedProps; keeper.go
  1434-1535): skipped nonces are written through a prefix store with a key that already has the prefix; the lists and clean-ups use the
  single prefix, and the list over all chains takes chain id and nonce from the wrong bytes.
* `Hyperion.slashed_batches_selected_by_chain` (KeysProps; batch.go 505): the search for batches to slash ranges over chain ids, not blocks.
* `Hyperion.clean_valset_confirms_removes_nothing` (keeper.go 443), `Hyperion.clean_nonces_of_all_chains` (keeper.go 1540, called by the
  reset of one chain in abci.go 50): the first deletes nothing, the second deletes the observed nonces of every chain.
* `Hyperion.prefixRange_visits_other_keys`: `PrefixRange` is only right for keys at least as long as the prefix.
* `Hyperion.withdraw_height_not_hashed`, `Hyperion.valset_reward_not_hashed`, `Hyperion.deployed_fields_run_together`,
  `Hyperion.deposit_and_deployment_collide` (ClaimsProps; types/msgs.go): `ClaimHash` of an executed batch leaves out the block height and
  that of a validator set the reward, names and symbols may contain the separator, and addresses are accepted without `0x`.
  `Hyperion.Attest.first_reporter_sets_height`: so the first reporter of a batch alone decides the recorded counterparty height, which
  drives the timeouts.
* `Hyperion.Attest.conflicting_claims_both_apply` (AttestProps; attestation.go 200, abci.go 256): the tally does not ask whether the nonce
  has been observed, and unobserved attestations are never pruned; two conflicting claims both take effect when power moves.
* `Hyperion.Attest.other_chain_replayed`, `Hyperion.Attest.block_time_replays`: replacing the contract of one chain removes the observed
  nonces of all chains, and `UpdateAverageBlockTime` triggers the same cleaning (abci.go 44); applied events can then be applied again.
* `Hyperion.Attest.departed_vote_counts`, `Hyperion.Attest.zero_threshold`, `Hyperion.Attest.early_double_vote`, `Hyperion.Attest.early_replay`.
* `StoreSkippedNonce` is given the last observed nonce where a start height is expected (attestation.go 238).

* `Hyperion.Valset.zero_power_published`, `Hyperion.Valset.zero_total_panics`: members with power 0 are published although `ValidateBasic`
  rejects such sets; a total power of 0 panics.
* `Hyperion.Valset.pruned_by_window_of_other_chain`: `pruneValsets` applies the window of every chain to all chains (abci.go 565-577).
* `Hyperion.Valset.lowered_offset_reuses_nonce`: lowering the offset of valset nonces (msg_server_testnet.go) reuses nonces of stored sets.
* `Hyperion.External.answered_without_power`: the power counted for external data requests is not reset between requests of one block
  (abci.go 648), so a request with one tiny vote is answered; `few_decide_against_many`: votes for different results are added up.
* `Hyperion.External.answer_depends_on_order`: on ties the stored answer depends on Go's map iteration order (abci.go 620): a consensus failure.
* `Hyperion.External.cancelled_without_refund`: answering a later request of a contract deletes the earlier ones and keeps their fees.
* Read but not modelled: valset and batch checkpoints ignore the chain id (types.go 160-226); `OutgoingTxBatch.GetFees` drops the
  result of `sum.Add` (types.go 265-271) and is always zero; slashing decodes the operator address with the account prefix (abci.go 362,
  508); slashing of valsets compares nonces with heights (keeper.go 387).
* `FeeMarket.zero_target_drops_fee`, `zero_target_disables`, `zero_base_fee_refuses_all`: with a block gas limit below the elasticity
  the target is 0, the base fee becomes 0 and from then on every Ethereum transaction is refused. `zero_elasticity_panics`: an elasticity
  of 0 passes `Params.Validate` though eip1559.go relies on it being validated.
* `FeeMarket.gas_wanted_wraps`: the gas wanted of a block is a wrapping sum (keeper.go 89-93).
* `FeeMarket.not_monotone_below_minimum`: while the base fee is below the minimum gas price, using less gas can raise it more.
* `FeeMarket.may_pay_less_than_minimum`, `may_pay_nothing`: a Cosmos transaction with a zero tip pays only the base fee; the minimum gas
  price is checked against the offered fee only.
* `Vesting.clawback_frees_locked`: `transferClawback` computes the reduced lockup schedule but stores a plain account; vested coins that are
  still locked up become spendable at once. `Vesting.clawback_may_be_invalid`: `ComputeClawback` can return an account that fails
  `Validate` (end = start). `Vesting.union_early_at_start`: an event at the start of a later schedule is read one second earlier in the
  union. Read but not modelled: lengths are only checked to be positive, so end times can overflow `int64`; the module is not
  registered in `app/app.go` (which uses the SDK's vesting module), and `CheckVesting` has no caller.
* `Epochs.negative_duration_accepted`: `EpochInfo.Validate` refuses only a zero duration; with a negative one every block ends an epoch.
  `Epochs.number_may_fall`: a genesis entry with a positive number that has not started falls back to 1. The end hook receives the number
  of the epoch that starts (`end_hook_has_next_number`), and after a long halt epochs are caught up one per block.
* `TokenFactory.proposal_mints_without_signature`: generic_proposal_handler.go 14-77 overwrites only fields named `Authority` or `Signer`;
  a passed proposal executes `MsgMint` (field `Sender`), a bank send or any other such message in the name of an account that never signed.
* `TokenFactory.admin_is_a_spelling`: the admin is compared as a string, so the upper-case spelling of the same account is refused.
  `admin_never_given_up`: `ValidateBasic` refuses an empty new admin, so minting rights cannot be renounced.
  `export_loses_description`: export and import lose the bank metadata. Read: `cannot set metadata for HELIOS` compares with `helios`
  while the base denomination is `ahelios`.
* `TokenFactory.deconstruct_not_injective`: a denomination with another spelling of the creator deconstructs to the same creator.
* `Erc20.genesis_spelling_breaks_registry`: genesis validation compares address strings, so two spellings of one contract pass.
  `Erc20.undescribed_denom_taken_over`: token creation checks only for bank metadata, so a registered denomination without metadata can be
  created again.
* `Erc20.Convert.skimming_contract_unbacked`: the payout from escrow checks only the receiver's token balance, not the module's.
  `Erc20.Convert.reentrant_contract_unbacked`: a contract that converts again inside its `transfer` (for example over the precompile for IBC
  transfers) passes both balance checks with one escrowed amount and two mints. Read: a log without topics makes `monitorApprovalEvent`
  panic; there is no message that converts coins back, only IBC receipts, failures and timeouts do.
* `Erc20.registered_at_most_once`: after a self-destructed contract's pair is deleted, its metadata stays and the contract can never
  be registered again.
* `VersionDB.cut_between_pairs_is_silent`: a change set file that ends in the middle of a version, but between two pairs, is iterated without
  any error; only the offset shows that bytes were left over.
* `VersionDB.rollback_leaves_abandoned`: `PutAtVersion` only adds entries. When the chain is rolled back and other blocks are executed, keys that
  only the abandoned blocks set stay visible at the new heights. `VersionDB.negative_version_reads_latest`: a negative version is cast to an
  unsigned one and reads the newest state. `VersionDB.slash_names_collide`: store names containing a slash share keys. Read: the comment of
  `GetLatestVersion` says -1 when there is none, the code returns 0; iterators' `Domain` returns the bounds with the prefix.
* `Hyperion.Slashing.nobody_is_slashed`: both slashing passes read the operator's address (prefix `heliosvaloper`) with
  `AccAddressFromBech32`, ignore the error, and skip the validator when no orchestrator is registered under the resulting empty address. So no
  validator is ever slashed for a missing confirmation (given the SDK's usual check of the prefix). If addresses were read correctly, two more
  problems would show: `Hyperion.Slashing.window_not_kept` (nonces are compared with a height, so a fresh request is punished in the block that
  made it) and `Hyperion.Slashing.batch_punished_again` (the last slashed block goes back when batches of several chains are in the range).
* `VM.static_call_can_write`: inside a static call, a plain call (without value) to a precompiled contract runs it with `readOnly = false`
  (evm.go `Call` passes the constant; `Interpreter().ReadOnly()` is never read), and `RunSetup` (precompiles/common/precompile.go 126) refuses
  transactions only by that flag. So a contract that is called statically can delegate, vote, transfer through the bridge and so on.
* `Addr.any_acc_fails`: `AnyToHexAddress` takes any text containing `val` for a validator address. About one account in 770 has these letters in
  its bech32 text (the wallet of cron 1280 is `helios1da55vzdwtfval9fltg0k9999a47qftgxxpwr95`) and is read as the zero address. Consequences:
  deposits of such crons stay behind at cancellation (`Chronos.deposit_lost`, `Chronos.retired_stuck`); the comparison of the bridge's initializer
  with a signer can succeed for somebody else (`Addr.initializer_fails`); rewards for external data votes go to the zero address.
* `Chronos.capital_stuck`: a call created with the own address in capitals (valid bech32) can never be cancelled, because `RemoveCron` compares
  with the lower-case text.
* `Chronos.never_executed`: `EndBlock` of the module is commented out; what is scheduled is never executed, charged or removed at expiry.
* `Chronos.queue_stale`: `UpdateCron` does not move a waiting call to the list of its new price; cancelling it leaves its entry in the queue for
  ever (`Chronos.stale_forever`). `Chronos.early_never_queued`: up to block 34800 zero counts as queued, so no callback is ever queued.
  Not modelled, because never called: `executeCron` reads `resFromExecution.GasUsed` of a nil pointer after an error; `GetBatchFees` reads the fee
  from beyond the end of the key and so finds zero.
* `VM.commit_can_fail`: a contract that is created at an address which already holds coins and self-destructs in its constructor makes the commit fail
  ("only smart contracts can be self-destructed"); the transaction is an error and costs the whole gas limit. Anybody can bring this about by sending a coin to
  the future address.
* `Revenue.withdrawers_are_not_listed`: `PostContractCreation` stores the deployer as withdrawer (the comment above says it does not) and does not add it to the
  index, so the query by withdrawer misses these contracts; after export and import (`Revenue.import_of_export`) it finds them.
  Not modelled: when hooks fail, the block bloom and the count of logs still include the logs of the reverted transaction; `PostTxProcessing` writes to a file
  in /tmp.
* Calls of precompiled contracts (C80). A call that fails adds no entry to the journal, but `RunSetup` has by then written all accounts that were changed so far into the cached context, and the
  handler may have written too; `Commit` stores the cached context. So what an enclosing call wrote stays although it is reverted: `PC.reverted_storage_stays` (storage), `PC.failed_call_mints` (a
  transfer stays at the receiver, while the payer, if it was touched before, is written back with its old balance: coins out of nothing), `PC.failed_call_takes_effect` and
  `PC.failed_call_mints_for_modules` (a delegation that ran out of gas at the end stays). The chronos, gov, hyperion and logos contracts call `stateDB.Commit` in the middle of the transaction, even for
  queries; a later revert cannot take this back: `PC.commit_in_the_middle_mints`. Contracts that change balances without reporting them (`delegate` called directly, `createCron`, `sendToChain`) have the
  change undone for accounts that were touched, for instance by sending a coin along, which none of them rejects: `PC.unreported_change_mints`. `delegate` of another coin through a contract
  reports the amount as EVM coins, which burns them: `PC.reported_other_coin_burns`. Not modelled: the chronos and hyperion contracts act for the origin of the transaction whoever calls them,
  so any contract that is called can spend the sender's coins; the counter of calls has 8 bits and wraps around.
- **The ERC-20 contract of a coin departs from EIP-20** (C81; helios-chain/precompiles/erc20). The Approval log of `approve`, `increaseAllowance` and `decreaseAllowance` names the token's own address as
  owner (approve.go 84, 143, 214), so indexers cannot follow allowances: `Erc20Token.approve_log_names_the_token`, `Erc20Token.approvals_are_not_told`. Transfers of zero fail, which EIP-20
  forbids: `Erc20Token.zero_amounts_fail`. `approve(spender, 0)` fails when the spender holds a grant for other coins only, so the common pattern "reset to zero, then approve" breaks:
  `Erc20Token.approval_of_zero_may_fail`. A grant is shared by all coins of an owner and a spender and keeps its first time of expiry, so an approval given later may end at any moment:
  `Erc20Token.later_approval_ends_with_the_first`.
- **Contracts act in the name of whoever signed the transaction** (C82; helios-chain/precompiles). `approve` of the staking contract records the grant for `evm.Origin`, whoever calls (staking.go 139-146, approve.go 56), so any
  contract a user calls can approve itself and then stake, unstake or cancel for the user: `Authority.called_contracts_stake_for_the_signer`, `Authority.consent_is_not_needed`. The distribution contract, votes, proposals, the bridge
  and scheduled calls need no grant at all: a contract may set the user's withdraw address to itself and spend the user's coins on the community pool, on bridge transfers to a destination of its choice, on
  deposits of proposals: `Authority.called_contracts_act_for_the_signer`. `unjail` checks nobody: any account may release any validator from jail (staking/tx.go 425-450), though the SDK wants the validator's
  signature: `Authority.anyone_unjails_any_validator`. A contract that stakes its own coins needs and uses up a grant of whoever happens to sign: `Authority.own_stake_of_contracts_uses_the_signers_grant`.
- **Estimates are not tested when funds are short** (C83; helios-chain/x/evm/keeper/grpc_query.go 320, 339-364, 425). `gasCap` is set before the limit is lowered to what the sender can pay, and only a result equal to `gasCap` is run once more. So
  whenever the funds bind and no affordable limit works, the query answers with all the gas the funds pay for, though the transaction fails with it (even if it always reverts): `Estimate.short_funds_give_untested_estimate`,
  `Estimate.estimate_may_not_work`. go-ethereum sets its cap after the lowering. In `BinSearch` (x/evm/types/utils.go 130) the sum of the ends is a 64-bit number: on a node whose gas cap is `2^64 - 1` a query with that gas for a
  transaction that always reverts is never answered: `Estimate.endless_search`. (The default cap is 25 million.)
- **Siblings count as nesting in the authz limiter** (C84; helios-chain/app/ante/cosmos/authz.go 54). `nestedLvl++` is done on the loop's own variable, so the limit of seven also counts `MsgExec` messages side by side: six harmless ones in one
  transaction are refused: `Routes.siblings_count_as_nesting`, exact rule in `Routes.limiter_exact`. `CheckTxFee` compares only the EVM denomination, so the same Ethereum transaction is accepted in envelopes with different
  further coins, hence different Cosmos hashes: `Routes.other_fee_coins_are_ignored`. Messages carried by proposals are not looked into: `Routes.proposals_are_not_searched` (their signer check is outside the model).
- **`eth_getLogs` past the last block finds nothing** (C85; helios-chain/rpc/namespaces/ethereum/eth/filters/filters.go 152-164). The end of the range may lie up to 600 blocks after the head, and the first height without results returns
  `nil, nil`, which drops the logs found so far. A query from a block the node has to any block after the head never gives a log: `LogQuery.past_the_head_nothing_is_found`, `LogQuery.logs_lost_past_the_head`. The same happens,
  silently, when the range starts at a dropped block: `LogQuery.dropped_blocks_hide_all`. Logs of scheduled calls are found by block number and not by block hash (119 against 176):
  `LogQuery.scheduled_calls_missing_by_hash`. An unknown hash gives neither block nor error (rpc/backend/blocks.go 262-265), and `resBlock.Block.Height` (108) is a nil dereference: `LogQuery.unknown_hash_crashes`.
- **The index of Ethereum transactions can miss blocks for good** (C86; helios-chain/server/indexer_service.go 76-106, indexer/kv_indexer.go 173-183). The service starts at the last block in the index that has an Ethereum transaction, or, if
  there is none, at the newest block: a restart on an index that is still empty leaves out the blocks in between (`EthIndex.skipped_on_empty`). An error of `IndexBlock` is logged and the next block is taken up; as later blocks raise
  the starting point, the block is never indexed (`EthIndex.failed_write_is_final`). The cast at kv_indexer.go 80 is not guarded: a refused transaction with the Ethereum option and another message, whose error text holds the words of the
  block gas error, makes the indexer panic (`EthIndex.refused_text_panics`). Without the index, look-ups by events are off by one after a transaction that failed while committing (`EthIndex.events_disagree`).
- **Receipts of a block always say success** (C87; helios-chain/rpc/backend/tx_info.go 362-390). `failed` is `!TxSuccessOrExpectedFailure(result)`, which is false for every transaction the block lists, reverted ones included, so
  `eth_getBlockReceipts` gives status 1 where `eth_getTransactionReceipt` gives 0: `EthIndex.block_receipts_never_fail`, `EthIndex.reverted_shown_as_success`. The gas of each receipt is that of the whole Cosmos transaction and the
  cumulative gas leaves out transactions of other kinds: `EthIndex.block_receipts_gas_wrong`. A transaction put into the block again and refused there overwrites the entry: `EthIndex.repeated_shown_as_failed`.
- **One Ethereum transaction has many message forms** (C88; helios-chain/x/evm/types/legacy_tx.go, access_list.go). The message holds texts and optional numbers: an absent amount and zero, leading zeros in the bytes of a signature, addresses in any
  case and without `0x`, and any text at all in access lists (never validated) read as the same transaction with the same hash: `Wrap.forms_not_unique`. The bytes of the Cosmos transaction, and so its CometBFT hash, can be changed on the way.
- **A chain number of more than 256 bits crashes the wrapping** (C88; access_list_tx.go, dynamic_fee_tx.go `SetSignatureValues` through `NewIntFromBigInt`): `Wrap.huge_chain_panics`; any caller of `eth_sendRawTransaction` can reach it (the handler recovers).
  A negative chain number passes validation: `Wrap.negative_chain_validates`.
- **The limit on fees limits nothing that is sent** (C89; helios-chain/rpc/backend/call_tx.go 57). `txfee-cap` ("global tx-fee cap for send transaction") is only looked at in `Resend`; `SendTransaction` and `SendRawTransaction` do not look at it:
  `Send.fee_not_limited`. And `Resend` never gets to a transaction: it unwraps pending ones with the zero hash: `Send.resend_finds_nothing`.
- **The next nonce is wrong with more than thirty pending transactions** (C89; chain_info.go 142, utils.go 84-98). `UnconfirmedTxs(ctx, nil)` gives CometBFT's default page of 30, and only Ethereum messages are counted:
  `Send.next_nonce_taken` (for every account and length above 30), `Send.next_nonce_other`, `Send.next_nonce_gap`.
- **The suggested gas price can be too low** (C90; helios-chain/rpc/backend/chain_info.go 348, call_tx.go 392). The suggestion is computed from the whole part of the base fee, the next base fee from all of it: from the parameters a chain starts with,
  after five full blocks `eth_gasPrice` is one below the base fee of the next block (`GasPrice.short_after_five`; never more than two below, `GasPrice.price_nearly`). The least change of one is left out (`GasPrice.short_when_small`), the
  least price of the chain loses its fraction (`GasPrice.short_by_least_price`), and the arithmetic is in int64: the branch marked "impossible if the parameter validation passed" is reached at base fees of 2^63 (`GasPrice.short_when_great`).
- **Fee histories depend on what others asked for** (C91; helios-chain/rpc/backend/chain_info.go 184, 235-251). The cache is kept by height only, rewards included: after a request for the median everyone gets medians, after one without rewards
  everyone gets zeros (`FeeHistory.others_percentiles`). Percentiles out of order are accepted and give wrong figures (`FeeHistory.unordered_percentiles`). The base fee after the last block is that of the newest block, because the header it is
  computed from has gas limit and gas used zero (`FeeHistory.next_base_fee_wrong`). Block 0 is answered with the newest block (`FeeHistory.block_zero`), and a count of 2^63 or more crashes the handler (`FeeHistory.great_counts_panic`).
  The cache is also a plain map written by concurrent requests (not modelled); Go ends the process when it notices that.
- **Typed data does not say who pays** (C92; helios-chain/eip712/encoding.go 128-199, app/ante/cosmos/eip712.go). The document made of a transaction in direct mode has the amount and gas of its fee only; granter and payer (and the signer's key
  and mode) are dropped without an error, unlike a timeout or options. Whoever sees a transaction signed so can add a granter: an account that granted the signer an allowance then pays (`Typed.granter_not_signed`, `Typed.direct_binds_false`).
- **Text is taken for numbers in mixed lists** (C92; helios-chain/eip712/types.go, app/ante/typeddata/typed_data.go 320-369). The type of a list is that of its first value: `[1, 2]` and `[1, "2"]` have the same typed data
  (`Typed.mixed_lists_confused`).
- **Uninstalling one filter takes all others along** (C93; helios-chain/rpc/namespaces/ethereum/eth/filters/filter_system.go 106-118, 243-268). Only the filter that opens a topic enters the index; later ones are subscribed to the bus without it. When
  that first filter is uninstalled or times out the loop finds nobody else in the index, closes the topic, and all other clients' filters of the kind vanish ("filter not found") (`Poll.uninstalling_takes_others_along`); one created at that moment too (`Poll.a_later_filter_is_lost_too`).
- **Uninstalling a filter can crash the node** (C93; filter_system.go 301-316 and 256-266). The reading loop looks up the channel of a topic under a lock, and sends on it without; the other loop may close it in between, and sending on a closed channel panics,
  with nothing to recover (`Poll.uninstalling_can_crash`).
- **Bursts lose events** (C93; rpc/ethereum/pubsub/pubsub.go 131-143). Publishing is a send on an unbuffered channel with a default case: an event that comes while the filter's goroutine handles the one before is lost without notice (`Poll.a_burst_loses`).
- **Removed filters of pending transactions spin** (C93; api.go 184-188). The case for the closed error channel lacks a return: the goroutine goes round for ever, taking the lock of the API each time, as long as other filters of the kind keep the topic open
  (`Poll.removed_pending_filters_spin`). Also: such filters give committed transactions, not pending ones; logs of the second Ethereum message of a transaction are never given (`Poll.second_message_not_given`).
- **Anyone can empty the escrow account of a channel** (C94; helios-chain/x/erc20/keeper/ibc_callbacks.go 132-141; helios-chain/app/app.go 674-682). After coins of a registered ERC-20 token come back over IBC the recipient's *whole balance* is converted to tokens. The
  account in which a channel keeps coins that are out is an ordinary account and not blocked: whoever sends one voucher to that address has all its coins burned and tokens given to an address that nobody controls. All other vouchers are then worth nothing, and
  refunds of transfers under way fail (`Erc20.Ibc.anyone_can_empty_the_escrow`, `Erc20.Ibc.vouchers_lost`).
- **Locked coins stop transfers and arrivals** (C94; ibc_callbacks.go 136; x/ibc/transfer/keeper/msg_server.go 71-72). The whole balance includes coins locked by vesting, so an account with any locked coins of the pair can receive none over IBC
  (`Erc20.Ibc.locked_accounts_receive_nothing`); a stranger can bring that about for a fresh address with one coin (`Erc20.Ibc.locked_by_a_stranger`). A sender with locked coins cannot send their tokens (`Erc20.Ibc.locked_coins_block_transfers`).
- **Refunds depend on the token** (C94; ibc_callbacks.go 186-240). A refund converts the full amount to tokens, even what had been sent as coins (`Erc20.Ibc.refunded_in_tokens`), does not look at the switch of the pair, and is undone when the conversion fails: while
  the token is paused nobody is refunded (`Erc20.Ibc.paused_token_blocks_refunds`).
- **Weights and stakes drift apart** (C95; x/erc20/keeper/msg_server.go 436-527, again in proposal_handler.go). The weight changes by a whole number rounded down, the weighted amounts by the percentage itself, rounded to two decimals. At weight 10 a small raise leaves the
  weight and raises all stakes by 5 per cent, as often as it is repeated (`Erc20.Weights.power_grows_without_bound`), so earlier delegations of the same amount count more (`Erc20.Weights.equal_amounts_unequal_power`); 3 to 4 and back loses a quarter of a per cent
  (`Erc20.Weights.up_and_down_loses`). The exact condition for an update without drift is `Erc20.Weights.even_iff`. That stakes follow the arguments of UpdateAssetWeight is assumed: the changed SDK is not in the repository.
- **Archived assets can be re-weighted** (C95; msg_server.go 444-474, whitelist.go 144-150). An update does not look at the flag; bringing the asset back then multiplies stakes by the new weight on top of it (`Erc20.Weights.archived_assets_are_updated`).
- **Weight zero is accepted by the message** (C95; msg_server.go 359-390). Only the proposal of the older kind checks it; an asset of weight zero counts nothing and every update of it panics (`Erc20.Weights.weight_zero_is_accepted`).
- **Orchestrators outlive the registration** (C96; x/hyperion/keeper/msg_server_helios.go 254-272). Leaving removes the orchestrator whose account is the validator's own; a separate orchestrator goes on acting for a validator that left, and cannot be registered again
  (`Hyperion.Orch.votes_after_leaving`); registering anew gives the validator two (`Hyperion.Orch.two_orchestrators`). An orchestrator that sends the message itself leaves the validator with an address and no orchestrator, and then the listing, and with it the export
  of the state, panics (`Hyperion.Orch.listing_can_panic`; exact condition in `Hyperion.Orch.listing_panics_iff`).
- **Anyone can take away who answers for an address** (C96; msg_server_helios.go 262-267, keeper.go 635-642, evidence.go 40-95). The Ethereum address in the message to leave is not compared with the sender's, and the sender need not be a validator: evidence against the
  validator of that address then finds nobody (`Hyperion.Orch.others_link_removed`). Two validators can also register one address, of which only the later answers (`Hyperion.Orch.shared_address`).
- **Fees that cannot be changed** (C96; msg_server_helios.go 200-232). The data are looked up under the validator's account, so one with a separate orchestrator cannot change its fee (`Hyperion.Orch.fee_cannot_change`); a deleted fee cannot be set again without leaving
  (`Hyperion.Orch.deleted_fee_stays`); a negative fee is stored as its magnitude (`Hyperion.Orch.negative_fee`).
- **Registrations are lost in an export** (C96; keeper.go 1158-1163, genesis.go 151-165). The listing does not fill in the number of the bridge, and the import stores under that number, which is zero; fees are not exported (`Hyperion.Orch.export_is_lost`).
- **Limits by a text the client chooses** (C97; server/middleware/middleware.go, json_rpc.go). X-Forwarded-For stands for the client without any proxy being trusted, so a new text each time passes every limit (`Rpc.Limits.header_evades`); a text that contains 127.0.0.1 is never
  refused for computing time (`Rpc.Limits.loopback_text_exempt`); without headers each port counts as another client (`Rpc.Limits.ports_are_clients`).
- **Limits of methods are evaded by batches and content types** (C97; json_rpc.go 330-390). A list of calls, or a content type not spelled "application/json" exactly, counts as the empty method (`Rpc.Limits.batches_evade`, `Rpc.Limits.content_type_evades`).
- **A new method's name can end the process** (C97; method_rate_limiter.go 33-47). The limiter is inserted into a Go map under a lock for reading; two requests at once are a fatal error (`Rpc.Limits.two_new_methods_crash`).
- **Connections are not counted, and freed too early** (C97; connection_limiter.go). The set is keyed by client, so one client may have any number open (`Rpc.Limits.one_client_unlimited`), and the end of one frees the place of all (`Rpc.Limits.place_freed_early`).
- **Anybody empties the tables; calls that time out are free; clients are never forgotten** (C97; routes/rpc_routes.go 190-216, json_rpc.go 487-520). (`Rpc.Limits.anybody_empties`, `Rpc.Limits.timeouts_are_free`, `Rpc.Limits.never_forgotten`).
- **Cached answers go back** (C98; rpc/cache/cache.go 160-205, cached_api.go 66-90). Nothing keeps two calls of the same question from running at once, and the later to end overwrites, so the height of the chain can go down for five seconds (`Rpc.Cache.goes_back`); it also lags behind
  what other methods say (`Rpc.Cache.behind_other_answers`), and any number of callers run the method before the first answer is there (`Rpc.Cache.stampede`).
- **Clean-up goroutines can be started by anybody** (C98; cached_api.go 637-646). The method is exported on the service registered with the RPC server; each call leaves a goroutine that never ends (`Rpc.Cache.routines_pile_up`).
- **Answers over WebSocket are changed** (C99; rpc/websockets.go 324-351). They go through float64, so numbers beyond 2^53 come out different (`Sock.forwarded_changes`); ids that are texts are answered with numbers (`Sock.text_id_changed`), and requests without an id, or with one that does not
  read as a number, are refused though HTTP answers them (`Sock.others_forwarded_iff`).
- **Headers in notifications are not those of the block** (C99; websockets.go 402-421, rpc/types/utils.go 71-96). The base fee is always 10^9, the bloom filter empty, and the test for the root of the transactions is the wrong way round (`Sock.header_as_queried_iff`, `Sock.header_differs`).
- **Subscribers miss events** (C99; pubsub.go 131-143, websockets.go). Channels have no room and the bus does not wait, so what is reported while a subscriber handles the event before is lost (`Sock.burst_loses`); a response that cannot be decoded ends a subscription to logs without a word
  (`Sock.undecodable_silences`); the range of blocks in criteria is not looked at (`Sock.block_range_ignored`).
- **Goroutines of ended subscriptions never end** (C99; websockets.go 396-462, 581-802). Cancelling takes the channel from the bus but tells the goroutine nothing (`Sock.goroutines_never_end`); each visit of a client leaves one behind (`Sock.visits_pile_up`).
- **A notification can come before the answer that names its subscription** (C99; websockets.go 246-268). (`Sock.note_before_answer`.)
- **Token code can make an IBC allowance last for ever** (C100; precompiles/ics20/tx.go 55-67, x/ibc/transfer/keeper/msg_server.go 91-101). The new limit is computed before the transfer and stored after it. If the transfer converts ERC-20 tokens first, the code of the token runs in between; if it calls the grantee and that sends other coins under the same grant, the end of the outer transfer puts the old limit back. Any multiple of the allowed amount can be sent (`Ics.consent_exceeded`), and a revocation made in between is undone (`Ics.revocation_undone`). It takes a registered token whose code calls back. `MsgExec` of the SDK stores the limit first and is not affected.
- **Any contract a user calls may send their coins over IBC** (C100; precompiles/ics20/ics20.go 101-108). `approve` takes `evm.Origin` for the granter, whoever calls, so a contract approves itself and sends (`Ics.called_contracts_send_for_the_signer`).
- **A contract needs the signer's allowance to send its own coins over IBC** (C100; precompiles/ics20/types.go 391-413). The grant of the origin is required and used up although the sender is the contract (`Ics.own_coins_need_the_signers_grant`, `Ics.own_coins_use_up_the_signers_grant`).
- **Limits for IBC transfers are kept by name, not by coin** (C100; x/ibc/transfer/keeper/msg_server.go 45-67). The name is replaced by the coin of the token pair only after the limit was checked, so a coin can be sent under another of its names, such as `erc20/` followed by its own (`Ics.limit_is_of_the_name`).
- **An IBC allowance that reached zero cannot be raised, and one raised to 2^256 - 1 has no limit** (C100; precompiles/ics20/types.go 334-351, approve_common.go 125-134). (`Ics.empty_cannot_be_raised`, `Ics.raised_to_the_end_is_unlimited`.)
- **The oldest blocks are on no page** (C101; rpc/backend/blocks.go 134-156). The page that reaches the beginning of the chain asks for block 0, which does not exist, and is refused as a whole; with pages of `size` the oldest `latest % size` blocks cannot be listed (`Pages.oldest_blocks_on_no_page`). Page numbers that wrap show other pages (`Pages.far_page_shows_newest`).
- **Transactions behind a hundred Cosmos transactions are on no page** (C101; rpc/backend/tx_info.go 711-733). The search for blocks stops when enough Cosmos transactions are found, but pages are filled with Ethereum ones. If the newest 1000 blocks hold a hundred Cosmos transactions, such as votes of orchestrators, and no Ethereum one, page 1 is empty at every size, and the newest Ethereum transaction is on no page at all, since later pages skip it (`Pages.newest_on_no_page`).
- **Transactions of an account are listed for 2000 blocks only** (C101; rpc/backend/account_info.go 438-466). (`Pages.account_old_on_no_page`.)
- **Pages of bridge history repeat** (C102; x/hyperion/keeper/grpc_query_helios.go 606-627). Finished transfers are taken from the end of the archive whatever the page, so each page ends with the newest ones, and transfers older than those are on no page (`History.all_pages_alike`, `History.older_on_no_page`).
- **Deposits under way go missing behind withdrawals** (C102; grpc_query_helios.go 588-600). Their positions are not shifted by the number of withdrawals before them (`History.deposits_on_no_page`).
- **The list of all bridge transfers is longer than asked for** (C102; grpc_query_helios.go 628-635). All of the last hundred finished transfers are appended (`History.all_page_shows`).
- **Bridge history before height 34800 is not found after it** (C102; keeper/archive_tx.go 24-31, 110-123). (`History.forgotten_at_switch`.)
- **Entries of access lists count only in one spelling** (C103; x/evm/types/permissions.go 130-150, params.go 196-207, types/validation.go 21-30). Entries without "0x" or with other capitals are accepted, and never matched: a blocked address acts freely, a permitted one is refused, an activated contract stays inactive (`Gate.blocked_by_other_spelling`, `Gate.refused_by_other_spelling`, `Gate.small_letters_not_seen`, `Gate.inactive_by_other_spelling`).
- **An active entry without a contract makes every call to it panic** (C103; x/evm/keeper/static_precompiles.go 151-163, params.go 238-258). Parameters with such an entry are accepted (`Gate.unknown_active_panics`).
- **Listing a contract gives no permission** (C103; permissions.go 140-150). The first call is made by the signer, so where calls need permission a listed contract lets nobody in (`Gate.permission_is_the_signers`).
- **An initializer of a bridge can make any coin, ahelios among them** (C105; msg_server_testnet.go SetTokenToChain and MintToken, tokens.go 157-174, 218-294). They link the coin to a contract of their chain with "is cosmos originated" off, and mint; the coin can also be put on the list of assets that count for consensus (`Admin.any_coin_can_be_made`, `Admin.any_coin_can_count`).
- **Burning more than one has burns the bridge's coins** (C105; tokens.go 176-193). The error of taking the coins from the signer is ignored, so that what the module holds, escrowed fees among them, is burnt (`Admin.burn_takes_from_the_bridge`).
- **Deleting a bridge loses withdrawals that are in a batch** (C105; msg_server_testnet.go DeleteChain, batch.go 260-268). Batches are deleted without giving their withdrawals back; those remain stored where nothing finds them (`Admin.batched_withdrawals_lost`).
- **Whitelisted addresses in another spelling cannot be taken off one by one** (C105; msg_server_testnet.go, the whitelist). The list is set as given, while removal looks for the checksummed text (`Admin.other_spelling_stays`).
- **With more than 100 RPC servers the one just used is dropped** (C105; keeper.go 1374-1405). Sorted by last use, the first hundred, used longest ago, are kept (`Admin.used_server_dropped`).
- **The pages of a scheduled call show transactions of other calls** (C106; archive_tx.go 335, grpc_query_cron.go 323-329). The index key is `nid:` followed by call and number without a separator: transaction 1 of call 11 puts transaction 11, whoever's it is, on the pages of call 1 (`CronArchive.shown_for_a_call`, `CronArchive.foreign_transactions_shown`, `CronArchive.stranger_on_the_page`).
- **Transactions of a call are paged in the order of their texts** (C106; same lines). The tenth comes before the second (`CronArchive.tenth_before_second`).
- **The pages of receipts of a scheduled call are always empty** (C106; grpc_query_cron.go 249). They look under `r:`, where nothing is ever written (`CronArchive.receipts_never_shown`).
- **Other entries of the archive are taken for hashes of transactions** (C106; archive_tx.go 298-304). The text asked for is used as a key as it is: `cron_count` yields the transaction whose number is the number of active calls (`CronArchive.any_word_is_a_hash`).
- **What scheduled calls did up to height 34800 is not found after it** (C106; archive_tx.go). Queries read only the store of their own height, and nothing was moved (`CronArchive.lost_at_the_switch`, `CronArchive.hashes_beyond_the_switch`).
- **Counts of the last block are counts of everything** (C106; module.go 156-157, keeper.go 310-311, 831). The lines that reset them are commented out (`CronArchive.last_block_counts_everything`); the count of active calls is never written either (`CronArchive.active_count`).
- **A failed execution of a scheduled call panics** (C106; keeper.go 790-832). The response is nil, and its gas is read nevertheless; not reached at this commit, since `EndBlock` is commented out (`CronArchive.failed_execution_stops`).
- **A token created in a call that is taken back exists nevertheless** (C107; erc20creator.go 99-250). The creator is the only built-in contract working on the transaction's state that never calls `AddJournalEntries`, so a revert of the enclosing call does not bring back the stores; only the log goes (`Create.reverted_creation_stays`; with the registration it would be undone: `Create.registered_creation_would_vanish`).
- **Refused creations leave their logo** (C107; erc20creator.go 121-131). The logo is stored before the arguments are looked at; if the calling contract goes on after the failure, it stays (`Create.logo_of_refused_creation_stays`). A creation that fails in the contract's minting has used up the denomination (`Create.failed_creation_takes_the_name`).
- **Coins without a description can be made by anybody** (C107; erc20creator.go 139-145). The only test for a new denomination is that it has no description; if coins of it exist, the creator makes more (`Create.coins_of_others_diluted`). The names of vouchers and bridged tokens are longer than the 32 bytes allowed, and the chain's own coin is described by the genesis of x/erc20; the danger is in coins put into the genesis without description.
- **Tokens go to the origin of the transaction, not to the caller** (C107; erc20creator.go 181-196). A contract that creates a token gets none of it (`Create.caller_gets_nothing`). The whole amount is also minted in the storage of the deployed contract, which the dynamic precompile hides (`Create.amount_exists_twice`).
- **Tokens without decimals cannot be created** (C107; erc20creator.go 147-171). The arguments allow 0 decimals, the check of the description does not, because exponents must grow; nor may symbol and denomination be equal (`Create.create_iff`).
- **A picture of exactly the size allowed is refused** (C107; x/logos/keeper/keeper.go 69). The limit on the text ignores the padding of base64; sizes up to two bytes below the limit pass (`Create.picture_of_the_limit_refused`, `Create.size_limit`). Anybody can set a logo's date to now by storing it again (`Create.stored_again_changes_the_date`).
- **Unvested coins can be delegated if they are not the staking coin** (C108; x/staking/keeper/msg_server.go 62-114, 35-57). The check takes the amount without its denomination and compares it with the balance of the staking coin less the unvested staking coins. With free staking coins an account delegates unvested coins of another kind, and the funder's clawback then fails for all coins (`Grant.other_coins_escape`); without them it cannot delegate other coins of its own (`Grant.free_coins_refused`). Whether other coins can be delegated is decided by the fork of the SDK's staking module, whose source is not in the repository; chain code elsewhere treats several staking assets.
- **The freeze during a vote is one mark per account** (C108; x/vesting/keeper/hooks.go 46-118, 151-183). With two proposals on an account the end of the first lets the funder act while the second is voted on (`Grant.first_end_unfreezes`); a later proposal that is rejected because another account opted out also removes the mark (`Grant.rejected_proposal_unfreezes`). A proposal cancelled by its proposer calls none of these hooks, so the funder stays shut out until another proposal on the account ends (`Grant.cancelled_stays_frozen`).
- **x/vesting is not in the application** (C108; app/app.go). The module's keeper, messages and hooks are not wired at this commit; the theorems speak of them as written.
- **A passed proposal can act for any account** (C109; app/generic_proposal_handler.go 29-77). The generic handler replaces the fields `Authority` and `Signer` and then runs the message without looking at its signers. A message that names its account in another field, such as the bank's `MsgSend` (`FromAddress`), is executed for whoever it names; the SDK's own rule that governance is the only signer is applied to the wrapper only. Nor does the route restrict the messages (`Propose.governance_takes_from_anyone`, `Propose.governance_acts_for_others`, `Propose.route_is_no_limit`).
- **Deposits of proposals are cut to 64 bits** (C109; precompiles/gov/tx.go 157, 216, 276, 337, types.go 827-830). For block parameters a deposit of k·2^64 + d costs d (`Propose.block_proposal_underpays`, `Propose.does_not_cost_what_it_says`). For assets a deposit from 2^63 to 2^64 - 1, and for blocks one whose low 64 bits are in that range, panics in `sdk.NewCoin` (`Propose.panics_when`). No method can deposit 2^64 (18.4 HLS) or more (`Propose.deposits_are_small`).
- **Messages of the bridge and of the registry need a foreign route** (C109; precompiles/gov/tx.go 401-409, 459-474, app/app.go 1190-1212). Inferred from the message, the route of such a proposal is `hyperion` or `erc20`, whose handlers do not know proposals for modules, so it is refused; under the route `bank` the same message is taken (`Propose.other_routes_refused`, `Propose.route_is_no_limit`).
- **Governance can spend the deposits** (C109). Deposits lie in the account that is also the authority, and a passed message that pays from it takes them along; in the SDK's end of block the next deposit to be returned is then an error (`Propose.deposits_can_be_spent`).
- **Honest signatures are evidence on other bridges** (C110; x/hyperion/types/batch.go 36-53, types/types.go 193-214, keeper/evidence.go 43-55). The checkpoint of a batch or validator set ignores the identifier of the bridge (the constant "checkpoint" stands in its place), the archive of legitimate checkpoints is kept per bridge, and the submitter chooses the bridge. A validator registered with the same address on two bridges can be slashed on the second for each signature given for the first, by anyone (`Evidence.bridge_not_signed`, `Evidence.convicted_elsewhere`, `Evidence.honest_are_not_safe`).
- **Evidence is not remembered** (C110; keeper/evidence.go 57-92). The same evidence is accepted any number of times and slashes each time; the validator is neither jailed nor marked (`Evidence.again_and_again`, `Evidence.each_time_costs`, `Evidence.once_is_not_enough`).
- **The archive of checkpoints is not exported** (C110; keeper/genesis.go). After a start from an export all signatures given before are evidence, also those over batches still under way (`Evidence.convicted_after_restart`).
- **Evidence for a bridge without parameters panics** (C110; keeper/evidence.go 85-86). The lookup gives a nil pointer (`Evidence.panics_iff`).
- **Mistyped block names are the first block** (C111; rpc/types/block.go 85-87). A text without `0x` goes through `cast.ToUint64`, which drops errors: `latets`, `-5`, `null` and decimals beyond 63 bits are all read as 0, and `010` as 8, instead of being refused (`BlockRef.no_prefix_accepted`, `BlockRef.mistyped_is_earliest`, `BlockRef.odd_names`).
- **`safe` is refused where a hash may stand** (C111; rpc/types/block.go 161-170). `decodeFromString` lacks the word, so `eth_call` or `eth_getBalance` at `safe` fail while `eth_getBlockByNumber` accepts it (`BlockRef.safe_refused`).
- **Block 0 is answered with block 1** (C111; rpc/types/block.go 101-109; `BlockRef.zero_is_one`).
- **Unknown block hashes crash the handler** (C111; rpc/backend/blocks.go 289-300). CometBFT returns a result without header for an unknown hash; the code tests the result, not the header, for nil (`BlockRef.crashes_iff`).
- **BLOCKHASH is always zero, if the fork of the SDK follows version 0.50** (C112; x/evm/keeper/state_transition.go 111-125). Hashes of earlier blocks are recomputed from the headers the staking module keeps. In version 0.50 these come from a context that lacks, among others, the protocol version and the hash of the validators, so the conversion fails, and CometBFT's hash of such a header is empty anyway. Contracts that rely on it get a constant (`BlockHash.always_zero`, `BlockHash.does_not_give_hashes`).
- **Refusals of a hardware wallet are taken for empty answers** (C113; wallets/usbwallet/ledger.go 429). The last two bytes of an answer are the device's status; they are cut off without a look, so that a declined request or a locked device is no error of the exchange (`Ledger.status_ignored`).
- **Answers of a hardware wallet can crash the host** (C113; wallets/usbwallet/ledger.go 400-429). An announced length below two, or a first packet with a number other than 0, makes a slice out of range; numbers of later packets are not checked at all (`Ledger.panics_when`, `Ledger.numbers_not_checked`).
- **Data of more than 255 bytes is sent to hardware wallets with a wrong length byte** (C113; wallets/usbwallet/ledger.go 372; `Ledger.long_data_misread`).
- **The export for height zero never succeeds** (C114; app/export.go 135-137, 217). The test `err == nil` after reading a validator's address is inverted, so that no validator is reinitialised and nothing outstanding is given to the community pool; the next step then panics for the first delegation, as historical rewards were deleted. Without delegations, the keys of validators are cut after the prefix and before the length of the address, so that no validator is found. Conditional on the fork of the SDK following version 0.50 (`ZeroHeight.never_exports`, `ZeroHeight.panics_with_delegations`; repaired: `ZeroHeight.repaired_partial`).
- **A list of validators to be kept makes the export panic** (C114; app/export.go 224-234). Validators not on the list are marked as jailed but stay in the power index, which the next step refuses. Conditional as above (`ZeroHeight.leaving_out_panics`).
- **Validation of records of logs does not look at topics, and at hashes only for being zero** (C115; x/evm/types/logs.go 55-69, types/validation.go 12-14). Unreadable texts are cut at the first error and filled with zeros; two valid records can stand for the same log, and a transaction's logs are refused when they spell its hash differently (`LogRecords.topics_unchecked`, `LogRecords.unreadable_is_cut`, `LogRecords.valid_records_collide`, `LogRecords.spelling_matters`).
- **Filters of proposals by title or description do nothing** (C117; rpc/backend/proposals_info.go 297-300). The documented parts `title-matches` and `description-matches` are read and never used; a status that is no number is ignored as well, so that everything is listed (`ProposalList.title_ignored`, `ProposalList.bad_status_ignored`).
- **A proposal without times of voting makes its page panic** (C117; rpc/backend/proposals_info.go 132-133). The times are dereferenced without a check. In version 0.50 of the SDK they are not set while deposits are collected, so then one such proposal hides the page it is on (`ProposalList.panics_iff`).
- **A proposal with a message without content makes its page panic** (C117; rpc/backend/proposals_info.go 44-90). Every message is read as a legacy content, whatever its type is; if that succeeds without a content in it, the missing content is dereferenced or cast without a check. Which messages of other types can be read so depends on the encoding and the JSON codec, which are not modelled (`ProposalList.panics_iff`).
- **Page 0 of proposals asks for an offset just below 2^64** (C117; rpc/backend/proposals_info.go 146, 269). Page minus one wraps around (`ProposalList.page_zero`).
