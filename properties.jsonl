{"id": "C01", "title": "memiavl tree behaves as a key/value map", "statement": "After any sequence of Set and Remove calls on a memiavl tree, Get(k) returns exactly the value of the last Set of k that was not followed by a Remove of k, and returns nothing for a key that was never set or was removed; Set reports 'updated' and Remove reports 'removed' exactly when the key was present.", "quantifier": "all finite histories of Set/Remove with arbitrary byte-string keys and values, all query keys", "why_tests_cant": "rotations and key replacement in inner nodes depend on the whole history; finite examples cover a vanishing share of tree shapes", "anchors": ["helios-chain/memiavl/node.go: setRecursive, removeRecursive", "helios-chain/memiavl/mem_node.go: Get, reBalance", "helios-chain/memiavl/tree.go: set, remove, Get"]}
{"id": "C02", "title": "memiavl tree stays ordered and balanced", "statement": "Every tree reachable by Set/Remove keeps keys in strict search order, every branch key equal to the smallest key of its right subtree, the stored height and size fields correct, and the heights of two siblings differing by at most one; hence the depth is logarithmic in the number of keys.", "quantifier": "all finite histories of Set/Remove; all nodes of the resulting tree", "why_tests_cant": "balance violations show only for particular insertion/deletion orders and grow with depth", "anchors": ["helios-chain/memiavl/mem_node.go: updateHeightSize, calcBalance, rotateLeft, rotateRight, reBalance", "helios-chain/memiavl/node.go: setRecursive, removeRecursive"]}
{"id": "C03", "title": "memiavl Get index and GetByIndex are inverse rank/select operations", "statement": "For a reachable tree, GetByIndex(i) returns the i-th smallest key for every i below the size and nothing otherwise, and GetWithIndex(k) returns the number of keys smaller than k, so the two are inverse on stored keys.", "quantifier": "all reachable trees, all indices and keys", "why_tests_cant": "off-by-size errors appear only for specific subtree size combinations", "anchors": ["helios-chain/memiavl/mem_node.go: Get, GetByIndex", "helios-chain/memiavl/tree.go: GetWithIndex, GetByIndex"]}
{"id": "C04", "title": "memiavl range iteration returns exactly the requested keys in order", "statement": "Iterating a reachable tree over [start,end) in ascending (descending) order yields every stored pair whose key lies in the range exactly once, in increasing (decreasing) key order, and nothing else; absent bounds mean unbounded.", "quantifier": "all reachable trees, all start/end bounds, both directions", "why_tests_cant": "the explicit-stack pruning logic has a case per relative position of bounds and branch keys at every depth", "anchors": ["helios-chain/memiavl/iterator.go: Iterator, Next", "helios-chain/memiavl/tree.go: Iterator"]}
{"id": "C05", "title": "memiavl Copy isolates readers from later writes", "statement": "A copy of a memiavl tree taken right after a version was saved keeps answering every query with the contents at copy time, no matter what is written to or saved on the original afterwards.", "quantifier": "all trees, all later histories of Set/Remove/SaveVersion on the original", "why_tests_cant": "aliasing bugs of in-place mutation need a particular interleaving of node versions and the copy-on-write watermark", "anchors": ["helios-chain/memiavl/mem_node.go: Mutate, newLeafNode", "helios-chain/memiavl/tree.go: Copy, SaveVersion", "helios-chain/memiavl/node.go: Mutate"]}
{"id": "C06", "title": "memiavl snapshot on disk answers queries like the tree it was written from", "statement": "Writing a tree to a snapshot (leaf and branch arrays) and opening it gives a persisted tree whose lookups, indices, sizes, heights and children are those of the original.", "quantifier": "all well-formed trees; all keys and indices", "why_tests_cant": "child offsets are reconstructed arithmetically from preTrees/keyLeaf; errors show only for particular shapes", "anchors": ["helios-chain/memiavl/snapshot.go: snapshotWriter.writeRecursive", "helios-chain/memiavl/persisted_node.go: Left, Right, getStartLeaf, getEndLeaf, getLeftBranch, Get, GetByIndex", "helios-chain/memiavl/layout_little_endian.go"]}
{"id": "C07", "title": "memiavl export/import round trip", "statement": "Importing the node stream exported from a tree rebuilds a tree with the same keys, values, versions, heights, sizes and root hash.", "quantifier": "all well-formed trees", "why_tests_cant": "the importer is a stack machine whose correctness depends on the post-order of arbitrary shapes", "anchors": ["helios-chain/memiavl/export.go", "helios-chain/memiavl/import.go: doImport, Add", "helios-chain/memiavl/tree.go: ScanPostOrder"]}
{"id": "C08", "title": "memiavl root hash commits to the contents", "statement": "Two trees with the same root hash have the same shape, keys, hashed values, versions, sizes and heights, unless two distinct byte strings with the same SHA-256 digest are exhibited.", "quantifier": "all pairs of well-formed trees", "why_tests_cant": "injectivity of an encoding over all trees is not a finite statement", "anchors": ["helios-chain/memiavl/node.go: HashNode, writeHashBytes", "helios-chain/memiavl/mem_node.go: Hash"]}
{"id": "C09", "title": "memiavl membership proofs verify", "statement": "For every key stored in a tree, the existence proof generated for it verifies against the tree's root hash with the stored value; and any existence proof that verifies for (key,value) against the root implies that pair is stored, unless a SHA-256 collision is exhibited.", "quantifier": "all well-formed trees, all stored keys, all candidate proofs of the generated form", "why_tests_cant": "proof paths depend on the path of every leaf; soundness quantifies over adversarial proofs", "anchors": ["helios-chain/memiavl/proof.go: GetMembershipProof, createExistenceProof, pathToLeaf, convertLeafOp, convertInnerOps"]}
{"id": "C10", "title": "memiavl WAL index and version conversions agree", "statement": "Converting a version to a WAL index and back is the identity for every version of a store whether or not it has an initial version, and consecutive versions use consecutive indices.", "quantifier": "all versions and initial versions in the supported ranges", "why_tests_cant": "off-by-one at the initial version and at unsigned boundaries", "anchors": ["helios-chain/memiavl/wal.go / multitree.go: walIndex, walVersion"]}
{"id": "C11", "title": "memiavl reload reproduces the committed state from any snapshot", "statement": "For every history of committed change sets, loading any saved snapshot and replaying the log up to version v yields exactly the contents the store had when version v was committed; a crash that loses nothing but the in-memory state therefore loses no committed version.", "quantifier": "all histories, all snapshot versions, all target versions, all crash points between commits", "why_tests_cant": "every (snapshot,target) pair of every history would have to be tried", "anchors": ["helios-chain/memiavl/db.go: Load, Commit, ApplyChangeSets", "helios-chain/memiavl/multitree.go: CatchupWAL, ApplyChangeSet, SaveVersion"]}
{"id": "C12", "title": "memiavl loading a target version never silently returns another version", "statement": "If loading with an explicit target version succeeds, the loaded store is at exactly that version.", "quantifier": "all stores, logs, snapshots and target versions", "why_tests_cant": "needs a log/snapshot layout that tests did not construct", "anchors": ["helios-chain/memiavl/multitree.go: CatchupWAL", "helios-chain/memiavl/db.go: Load"]}
{"id": "C13", "title": "memiavl pending change sets merge as one commit", "statement": "Splitting the change sets of a version over several ApplyChangeSets calls gives the same log entry effect as one call: replaying the entry written by Commit produces the state the live store has.", "quantifier": "all ways of splitting all change sets over calls", "why_tests_cant": "merging by store name interacts with order of calls", "anchors": ["helios-chain/memiavl/db.go: ApplyChangeSets, ApplyChangeSet, Commit, pendingLog"]}
{"id": "C14", "title": "memiavl pruning keeps recent versions loadable", "statement": "After pruning snapshots, every version from the oldest kept snapshot to the latest is still loadable, and at least the configured number of recent snapshots is kept.", "quantifier": "all snapshot sets, keep-recent settings and log ranges", "why_tests_cant": "crash/prune interleavings and boundary counts", "anchors": ["helios-chain/memiavl/db.go: pruneSnapshots, traverseSnapshots"]}
{"id": "C15", "title": "memiavl log opening cuts a corrupted tail", "statement": "When a log segment ends in a partially written entry, opening it with recovery keeps every complete entry before the damage and removes the damaged tail.", "quantifier": "all segment contents and cut points", "why_tests_cant": "depends on exact byte lengths of prefix and tail", "anchors": ["helios-chain/memiavl/wal.go: truncateCorruptedTail, OpenWAL, loadNextBinaryEntry"]}
{"id": "C16", "title": "memiavl store upgrades apply as described", "statement": "Applying a list of store upgrades deletes, renames and adds exactly the named stores, keeps the others with their contents, and refuses conflicting upgrades.", "quantifier": "all store sets and upgrade lists", "why_tests_cant": "combinations of delete/rename/add on overlapping names", "anchors": ["helios-chain/memiavl/multitree.go: ApplyUpgrades"]}
{"id": "C17", "title": "EVM state: revert restores everything observable", "statement": "After taking a snapshot and performing any operations (including nested snapshots and reverts), reverting to it makes every balance, nonce, code, code hash, storage slot, self-destruct flag, account existence, log, refund counter and access-list answer equal to what it was when the snapshot was taken.", "quantifier": "all starting states, all operation sequences, all nesting depths", "why_tests_cant": "each journal entry kind must undo its mutation in every order and interleaving", "anchors": ["helios-chain/x/evm/statedb/statedb.go: Snapshot, RevertToSnapshot, CreateAccount, SetState, Suicide, ...", "helios-chain/x/evm/statedb/journal.go", "helios-chain/x/evm/statedb/state_object.go"]}
{"id": "C18", "title": "EVM state: commit writes exactly the final state", "statement": "Committing after any operation sequence stores, for every account, exactly the balance, nonce, code and storage that the EVM last observed; accounts whose changes were all reverted and untouched accounts are left as they were; self-destructed accounts are deleted.", "quantifier": "all stored states and operation sequences including reverts", "why_tests_cant": "depends on the dirty bookkeeping over arbitrary journals", "anchors": ["helios-chain/x/evm/statedb/statedb.go: Commit, commitWithCtx", "helios-chain/x/evm/statedb/journal.go: dirties, sortedDirties"]}
{"id": "C19", "title": "EVM access list follows EIP-2929", "statement": "An address (slot) is warm exactly if it was added since the start of the transaction and that addition was not reverted; adding reports first access correctly.", "quantifier": "all sequences of additions, snapshots and reverts", "why_tests_cant": "index-linked slot lists only break for particular undo orders", "anchors": ["helios-chain/x/evm/statedb/access_list.go", "helios-chain/x/evm/statedb/statedb.go: AddAddressToAccessList, AddSlotToAccessList, PrepareAccessList"]}
{"id": "C20", "title": "EVM refund counter and snapshot identifiers are consistent", "statement": "The refund counter equals additions minus subtractions that were not reverted and never becomes negative; snapshot identifiers are never reused and reverting to an outer snapshot invalidates inner ones.", "quantifier": "all operation sequences", "why_tests_cant": "counter and revision list interact with nested reverts", "anchors": ["helios-chain/x/evm/statedb/statedb.go: AddRefund, SubRefund, Snapshot, RevertToSnapshot"]}
{"id": "C21", "title": "bridge: every pending withdrawal is in exactly one place", "statement": "At all times each accepted, not yet finished bridge withdrawal is either available for batching or contained in exactly one outgoing batch, never both and never in two batches; finished (refunded or executed) withdrawals are in neither.", "quantifier": "all histories of submissions, cancellations, batch requests, batch timeouts and batch executions", "why_tests_cant": "the fee index, pool and batches are separate stores kept consistent only by all operations together", "anchors": ["helios-chain/x/hyperion/keeper/pool.go", "helios-chain/x/hyperion/keeper/batch.go", "helios-chain/x/hyperion/abci.go: cleanupTimedOutBatches, cleanupTimedOutOutgoingTx"]}
{"id": "C22", "title": "bridge: a withdrawal is paid out or refunded at most once", "statement": "No withdrawal is refunded twice, refunded after it was executed on the counterparty chain, or refunded while it sits in a batch; a refund goes to the original sender with the original amount.", "quantifier": "all histories, all callers", "why_tests_cant": "needs all interleavings of cancel, batch, timeout and execution", "anchors": ["helios-chain/x/hyperion/keeper/pool.go: RemoveFromOutgoingPoolAndRefund", "helios-chain/x/hyperion/keeper/batch.go: OutgoingTxBatchExecuted, CancelOutgoingTXBatch"]}
{"id": "C23", "title": "bridge: supply and fee escrow are conserved", "statement": "The supply of a bridged token on this chain plus the amount held in pending withdrawals changes only by observed deposits and executed withdrawals, and the fee tokens held by the module always cover the fees of all pending withdrawals.", "quantifier": "all histories of bridge operations", "why_tests_cant": "a conservation law over unbounded histories", "anchors": ["helios-chain/x/hyperion/keeper/pool.go: AddToOutgoingPool, RemoveFromOutgoingPoolAndRefund", "helios-chain/x/hyperion/keeper/batch.go: OutgoingTxBatchExecuted", "helios-chain/x/hyperion/keeper/attestation_handler.go: Handle"]}
{"id": "C24", "title": "bridge: an event is applied only with the required voting power", "statement": "A claimed counterparty event takes effect only when the distinct validators that voted for that same claim hold at least 66 percent of the bridge voting power.", "quantifier": "all validator power distributions and vote histories", "why_tests_cant": "threshold arithmetic and duplicate votes over all vote sequences", "anchors": ["helios-chain/x/hyperion/keeper/attestation.go: Attest, TryAttestation", "helios-chain/x/hyperion/types: AttestationVotesPowerThreshold"]}
{"id": "C25", "title": "bridge: at most one claim per event nonce takes effect", "statement": "For every event nonce at most one claim is ever applied, even when validators submit conflicting claims.", "quantifier": "all vote histories with conflicting claims", "why_tests_cant": "requires conflicting claims reaching the threshold in the same or different blocks", "anchors": ["helios-chain/x/hyperion/keeper/attestation.go: Attest, TryAttestation", "helios-chain/x/hyperion/abci.go: attestationTally"]}
{"id": "C26", "title": "bridge: batch nonces and transaction ids are never reused", "statement": "Ids given to withdrawals and nonces given to batches are strictly increasing per counterparty chain and never reused, also after cancellation.", "quantifier": "all histories", "why_tests_cant": "reuse needs an unlikely ordering of create and delete", "anchors": ["helios-chain/x/hyperion/keeper/pool.go: AutoIncrementID, AddToOutgoingPool", "helios-chain/x/hyperion/keeper/batch.go: BuildOutgoingTXBatch"]}
{"id": "C27", "title": "bridge: batches take the highest fees first", "statement": "A batch built from the pool contains at most the size limit, only withdrawals of the requested token, and no withdrawal left in the pool pays a higher fee than one that was taken.", "quantifier": "all pools, limits and fee distributions", "why_tests_cant": "ordering over arbitrary fee distributions with ties", "anchors": ["helios-chain/x/hyperion/keeper/batch.go: BuildOutgoingTXBatch, pickUnbatchedTX", "helios-chain/x/hyperion/keeper/pool.go"]}
{"id": "C28", "title": "bridge: store keys of different objects never collide", "statement": "Distinct bridge objects (different kind, chain id, nonce, token or validator) are stored under distinct keys, and iterating the prefix of a chain returns exactly the objects of that chain.", "quantifier": "all identifiers in the 64-bit/20-byte ranges", "why_tests_cant": "collisions need special byte patterns such as 0xff runs", "anchors": ["helios-chain/x/hyperion/types/key.go", "helios-chain/x/hyperion/keeper/keeper.go: PrefixRange"]}
{"id": "C29", "title": "bridge: skipped event nonces can be listed and cleaned", "statement": "Every event nonce recorded as skipped for a chain is returned by the query for that chain until it is removed.", "quantifier": "all chains and nonces", "why_tests_cant": "depends on key layout for all ids", "anchors": ["helios-chain/x/hyperion/keeper/keeper.go: StoreSkippedNonce, GetAllSkippedNonces, CleanSkippedTxs", "helios-chain/x/hyperion/types/key.go: GetSkippedNonceKey"]}
{"id": "C30", "title": "bridge: normalised validator powers are sound", "statement": "The powers published for a validator set sum to at most 2^32-1 and lose less than one unit per member, and keep the relative order of the validators.", "quantifier": "all power distributions", "why_tests_cant": "rounding over arbitrary distributions", "anchors": ["helios-chain/x/hyperion/keeper/keeper.go: GetCurrentValset"]}
{"id": "C31", "title": "bridge: external data results need the voting threshold", "statement": "An external data request is answered only when the validators that voted for it hold the required share of the voting power.", "quantifier": "all sets of pending requests and votes", "why_tests_cant": "needs several pending requests in one block", "anchors": ["helios-chain/x/hyperion/abci.go: executeExternalDataTxs"]}
{"id": "C32", "title": "fee market: base fee update follows EIP-1559", "statement": "The base fee stays equal at the gas target, rises strictly above it, never rises below it, never drops below the minimum gas price when it falls, moves by at most base fee / denominator times the excess ratio (or one unit), and is monotone in the gas used.", "quantifier": "all base fees, gas usages, limits and parameters", "why_tests_cant": "integer rounding over all parameters", "anchors": ["helios-chain/x/feemarket/keeper/eip1559.go: CalculateBaseFee", "helios-chain/x/feemarket/keeper/abci.go: EndBlock"]}
{"id": "C33", "title": "vesting: merging schedules adds them", "statement": "The union of two vesting schedules releases at every time exactly the sum of what the two schedules release.", "quantifier": "all schedules, start times and read times", "why_tests_cant": "interleavings of two period lists", "anchors": ["helios-chain/x/vesting/types/schedule.go: DisjunctPeriods, ReadSchedule"]}
{"id": "C34", "title": "vesting: intersecting schedules takes the minimum", "statement": "The conjunction of two vesting schedules has released at every time exactly the per-denomination minimum of the two.", "quantifier": "all schedules, start times and read times", "why_tests_cant": "interleavings and rounding of minima", "anchors": ["helios-chain/x/vesting/types/schedule.go: ConjunctPeriods, ReadSchedule"]}
{"id": "C35", "title": "vesting: clawback takes exactly the unvested coins", "statement": "A clawback at time t returns exactly the unvested coins at t; the remaining account is valid, keeps all coins vested at t and never unlocks earlier than before.", "quantifier": "all accounts and clawback times", "why_tests_cant": "depends on arbitrary lockup and vesting schedules", "anchors": ["helios-chain/x/vesting/types/clawback_vesting_account.go: ComputeClawback, LockedCoins, AddGrant"]}
{"id": "C36", "title": "epochs: epoch numbers follow block time", "statement": "Epoch numbers never decrease, increase by at most one per block, an epoch ends only after its full duration has passed, and start times are always the initial start plus a whole number of durations.", "quantifier": "all sequences of non-decreasing block times", "why_tests_cant": "long gaps and boundary times over unbounded histories", "anchors": ["helios-chain/x/epochs/keeper/abci.go: BeginBlocker", "helios-chain/x/epochs/types/epoch_info.go"]}
{"id": "C37", "title": "token factory: denominations identify creator and name", "statement": "Two different (creator, subdenom) pairs never produce the same denomination, and deconstructing a constructed denomination returns the creator and subdenom it was built from.", "quantifier": "all creators and subdenoms, including subdenoms with separators", "why_tests_cant": "separator injection over all strings", "anchors": ["helios-chain/x/tokenfactory/types/denoms.go: GetTokenDenom, DeconstructDenom"]}
{"id": "C38", "title": "token factory: only the current admin changes a denomination", "statement": "Supply of a factory denomination grows only through a mint signed by the admin at that time, and admin rights move only by an admin's own message; after the admin is set to empty nobody can mint.", "quantifier": "all histories of create, mint, burn, change-admin and metadata messages", "why_tests_cant": "authorisation over unbounded histories", "anchors": ["helios-chain/x/tokenfactory/keeper/msg_server.go", "helios-chain/x/tokenfactory/keeper/bankactions.go", "helios-chain/x/tokenfactory/keeper/createdenom.go"]}
{"id": "C39", "title": "erc20: pair registry is a bijection", "statement": "At all times a registered token contract maps to a denomination and back to the same contract; deleting a pair removes both directions.", "quantifier": "all histories of registration, toggling and deletion", "why_tests_cant": "three stores kept in sync only by every operation", "anchors": ["helios-chain/x/erc20/keeper/token_pairs.go", "helios-chain/x/erc20/keeper/proposals.go"]}
{"id": "C40", "title": "erc20: converted coins are fully backed", "statement": "For a native ERC-20 pair, the coins in circulation never exceed the tokens escrowed by the module, whatever the token contract does within the checked calls.", "quantifier": "all histories of conversions with an adversarial token contract", "why_tests_cant": "adversarial contract behaviour", "anchors": ["helios-chain/x/erc20/keeper/msg_server.go: convertERC20IntoCoinsForNativeToken, ConvertCoinNativeERC20"]}
{"id": "C41", "title": "memiavl: cached root hashes are never stale", "statement": "RootHash, which reuses hashes cached in nodes shared between a tree and its copies, always returns the hash recomputed from the tree's current content, and computing it changes nothing readable.", "quantifier": "all interleavings of writes, saves, copies and hash computations on any number of trees sharing nodes", "why_tests_cant": "a stale cache only shows under particular interleavings of copy, in-place update and hashing", "anchors": ["helios-chain/memiavl/mem_node.go: Hash, Mutate", "helios-chain/memiavl/tree.go: RootHash, Copy"]}
{"id": "C42", "title": "memiavl: recorded node versions follow the history", "statement": "Each stored leaf carries the version its last write belongs to (the one after the last saved version at the time of the write), and no branch is older than anything below it; these versions are hashed, so nodes that replay the same history agree on them.", "quantifier": "all histories of writes, removals and version saves", "why_tests_cant": "depends on every rotation and removal path touching the right nodes, over unbounded histories", "anchors": ["helios-chain/memiavl/node.go: setRecursive, removeRecursive", "helios-chain/memiavl/mem_node.go: Mutate, rotateLeft, rotateRight, reBalance"]}
{"id": "C43", "title": "memiavl: initial version", "statement": "Setting the initial version of an empty database, after any store upgrades, gives exactly the database that would have been created with this initial version: its first commit has that version, in every store, and survives reloads.", "quantifier": "all initial versions and all lists of store upgrades before the first commit", "why_tests_cant": "must agree for every list of upgrades applied before the call and with every later history", "anchors": ["helios-chain/memiavl/db.go: SetInitialVersion, initEmptyDB", "helios-chain/memiavl/multitree.go: SetInitialVersion", "helios-chain/memiavl/tree.go: SetInitialVersion, NewWithInitialVersion"]}
{"id": "C44", "title": "memiavl: latest version without loading", "statement": "The version reported for a database directory without loading it is the version that loading it opens.", "quantifier": "all histories of the database, at every crash point between acts", "why_tests_cant": "depends on the relation between log, snapshots and initial version over whole histories", "anchors": ["helios-chain/memiavl/db.go: GetLatestVersion"]}
{"id": "C45", "title": "bridge: no bridge operation stops the chain", "statement": "No message, attestation effect or end-of-block cleanup of the outgoing bridge makes the node panic, whatever happened before.", "quantifier": "all histories of bridge operations and all arguments", "why_tests_cant": "a panic needs inconsistent pool, index and batch stores, which only some order of operations could produce", "anchors": ["helios-chain/x/hyperion/keeper/pool.go: GetUnbatchedTransactions, removeFromUnbatchedTXIndex", "helios-chain/x/hyperion/keeper/batch.go: OutgoingTxBatchExecuted, CancelOutgoingTXBatch", "helios-chain/x/hyperion/abci.go: cleanupTimedOutBatches"]}
{"id": "C46", "title": "bridge: timeouts take everything overdue and nothing else", "statement": "After the end-of-block cleanup no overdue withdrawal is waiting and no overdue batch exists, what was not overdue is untouched, and the administrative reset leaves no waiting withdrawal and no batch of the chain.", "quantifier": "all histories, heights and timeouts", "why_tests_cant": "iteration over stores that change during the iteration, for every mix of overdue and other entries", "anchors": ["helios-chain/x/hyperion/abci.go: cleanupTimedOutBatches, cleanupTimedOutOutgoingTx", "helios-chain/x/hyperion/keeper: CleanBatchs, CancelAllPendingTxs"]}
{"id": "C47", "title": "bridge: genesis export keeps pending withdrawals", "statement": "Exporting the bridge and starting a chain from the export keeps every pending withdrawal where it was (waiting or in its batch), and new ids and nonces continue the old ones.", "quantifier": "all reachable states and sets of exported chains", "why_tests_cant": "any reachable mix of waiting and batched withdrawals", "anchors": ["helios-chain/x/hyperion/keeper/genesis.go: InitGenesis, ExportGenesis"]}
{"id": "C48", "title": "bridge: searches for slashing and resets touch exactly the chain's objects", "statement": "The searches behind slashing (batches and validator sets not yet slashed up to a block) return exactly the chain's objects in that window, and the clean-ups run by the reset of a chain remove all confirmations and observed nonces of that chain and nothing of other chains.", "quantifier": "all store contents, chains, blocks and nonces", "why_tests_cant": "depends on byte ranges over arbitrary 8-byte encodings; tests use a few small ids", "anchors": ["helios-chain/x/hyperion/keeper/batch.go: IterateBatchBySlashedBatchBlock", "helios-chain/x/hyperion/keeper/keeper.go: IterateValsetBySlashedValsetNonce, CleanValsetConfirms, CleanAllNonceObserved", "helios-chain/x/hyperion/types/key.go"]}
{"id": "C49", "title": "bridge: votes are pooled only for claims with the same effect", "statement": "Validators vote for a claim by its hash and the first claim received with that hash is applied; so two well-formed claims that are hashed from the same string agree on every field that determines what is applied.", "quantifier": "all pairs of well-formed claims of all four kinds", "why_tests_cant": "needs injectivity of a textual encoding over all strings, amounts and member lists", "anchors": ["helios-chain/x/hyperion/types/msgs.go: ClaimHash, ValidateBasic", "helios-chain/x/hyperion/keeper/attestation.go: Attest"]}
{"id": "C50", "title": "bridge: last observed and skipped nonces follow the applied events", "statement": "As long as the bridge contract is not replaced, the last observed nonce of a chain is the greatest nonce of an applied event (or the initial one), and a nonce is recorded as skipped exactly when it lies below the last observed nonce, above the initial one, and no event with it has been applied.", "quantifier": "all histories of claims, blocks, validator changes and chains", "why_tests_cant": "events are applied out of order and in any interleaving of chains", "anchors": ["helios-chain/x/hyperion/keeper/attestation.go: TryAttestation", "helios-chain/x/hyperion/keeper/keeper.go: StoreSkippedNonce, RemoveSkippedNonce"]}
{"id": "C51", "title": "bridge: enough votes always take effect at the end of the block", "statement": "If distinct bonded validators that sent the same claim hold the required power at the end of a block, then after that block an event with that nonce has been applied.", "quantifier": "all histories of claims and blocks, all changes of validator powers", "why_tests_cant": "liveness over all histories, including pruning and refused votes", "anchors": ["helios-chain/x/hyperion/keeper/attestation.go: Attest, TryAttestation", "helios-chain/x/hyperion/abci.go: attestationTally, pruneAttestations"]}
{"id": "C52", "title": "bridge: requested validator sets follow the current set", "statement": "After every block the newest requested validator set differs from the current one by at most 5% of the power, a requested set never changes while it is stored, and it is removed only after a newer set has been observed on the other chain.", "quantifier": "all histories of blocks with arbitrary validator powers and of observed updates", "why_tests_cant": "needs an invariant over all histories of validator changes, prunings and observations", "anchors": ["helios-chain/x/hyperion/abci.go: createValsets, pruneValsets", "helios-chain/x/hyperion/keeper/keeper.go: SetValsetRequest, GetLatestValset", "helios-chain/x/hyperion/types/types.go: PowerDiff"]}
{"id": "C53", "title": "bridge: the answer to an external data request is the same on every node", "statement": "The state after the end of a block does not depend on the iteration order of Go maps used to choose the answer of an external data request.", "quantifier": "all sets of claims, all iteration orders", "why_tests_cant": "the iteration order is random per process; a test on one node cannot see two orders", "anchors": ["helios-chain/x/hyperion/abci.go: selectBestClaimFromListOfClaims, executeExternalDataTxs"]}
{"id": "C54", "title": "bridge: fees of external data requests are accounted for", "statement": "The module always holds the fees of all pending requests; every request ends at most once, as refunded, answered or cancelled; payments for a request never exceed its fee; refunds go to the sender in full; overdue requests are refunded; no request loses its fee without an answer.", "quantifier": "all histories of requests, claims and blocks", "why_tests_cant": "conservation over all histories and all interleavings of requests and timeouts", "anchors": ["helios-chain/x/hyperion/keeper/external_data.go", "helios-chain/x/hyperion/abci.go: executeExternalDataTxs", "helios-chain/precompiles/hyperion/methods.go: RequestData"]}
{"id": "C55", "title": "EVM transactions pay exactly gas used times the EIP-1559 price", "statement": "A transaction that is not refused pays, per unit of gas, the minimum of its fee cap and base fee plus tip, which is at least the base fee and the minimum gas price; the fee collector receives exactly gas used times this price; a transaction whose execution fails changes nothing else; a refused transaction changes nothing.", "quantifier": "all accounts, transactions, fee parameters and execution outcomes", "why_tests_cant": "deduction and refund happen in different places with prices computed by different functions; all outcomes have to agree", "anchors": ["helios-chain/app/ante/evm/mono.go: AnteHandle", "helios-chain/x/evm/keeper/gas.go: RefundGas", "helios-chain/x/evm/keeper/state_transition.go: ApplyTransaction"]}
{"id": "C56", "title": "EVM transactions are never replayed", "statement": "A transaction takes effect only if its nonce is the next one of its sender, and over the whole history no two transactions with the same sender and nonce take effect, whatever the executions (failures, contract creation) do.", "quantifier": "all histories of transactions and other state changes", "why_tests_cant": "needs an invariant over all histories; contract creation sets the nonce a second time", "anchors": ["helios-chain/app/ante/evm/10_increment_sequence.go: IncrementNonce", "helios-chain/x/evm/keeper/state_transition.go: ApplyMessageWithConfig"]}
{"id": "C57", "title": "EVM gas used is bounded", "statement": "The gas a transaction is charged for is at most its gas limit, at least the gas limit times the minimum gas multiplier, and at least four fifths of the gas its execution really used.", "quantifier": "all gas limits, multipliers, execution outcomes and refund counters", "why_tests_cant": "decimal rounding over all values", "anchors": ["helios-chain/x/evm/keeper/state_transition.go: ApplyMessageWithConfig", "helios-chain/x/evm/keeper/gas.go: GasToRefund"]}
{"id": "C58", "title": "Cosmos transactions pay between the base fee and their offer", "statement": "A Cosmos transaction is accepted exactly if its fee covers the base fee for its gas limit; what it pays is at least that, at most the fee offered and at most base fee plus tip rounded up, and never below the minimum gas price.", "quantifier": "all fees, gas limits, tips and fee market parameters", "why_tests_cant": "decimal rounding over all values; two separate checks", "anchors": ["helios-chain/app/ante/evm/fee_checker.go: feeChecker", "helios-chain/app/ante/cosmos/min_price.go: MinGasPriceDecorator"]}
{"id": "C60", "title": "versiondb: change set files survive a cut at any byte", "statement": "Reading a change set that was written gives back the version, all pairs and the right number of bytes, whatever follows; iterating over a file shows exactly what was written; iterating over a file cut off at any byte shows exactly the versions that are complete, with all their pairs, and reports the offset where the last complete one ends; listing only the versions agrees with reading everything.", "quantifier": "all lists of change sets and all positions of a cut", "why_tests_cant": "crash points at every byte of every file", "anchors": ["helios-chain/versiondb/client/changeset.go: WriteChangeSet, ReadChangeSet, IterateChangeSets, IterateVersions"]}
{"id": "C59", "title": "versiondb: reads at a version show exactly the state after that block", "statement": "Get, Has and forward and reverse iterators over any range of a store at version v show exactly the keys and values after block v (after the last block when no version is given); keys of other stores, later blocks and deleted keys never show; replaying the last block changes nothing; the latest version reported is that of the last block.", "quantifier": "all histories of blocks and change sets, all stores, keys, ranges and versions", "why_tests_cant": "the order of the comparator, the prefix of the store and the iteration bounds have to fit together for all keys and versions", "anchors": ["helios-chain/versiondb/tsrocksdb/store.go: PutAtVersion, GetAtVersion, IteratorAtVersion", "helios-chain/versiondb/tsrocksdb/iterator.go", "helios-chain/versiondb/tsrocksdb/comparator.go: compare", "helios-chain/versiondb/streaming_service.go"]}
{"id": "C61", "title": "versiondb: the external sorter sorts, whatever the chunks and the scheduling", "statement": "The output of the sorter is the input, every item as often as it was fed, ordered by key and newest version first, for every chunk size, every way of sorting the chunks and every order in which the goroutines finish; fed with different (key, version) pairs the output is always the same; a store built from the sorted files is exactly the one that feeding the change sets one by one gives.", "quantifier": "all inputs, chunk sizes and schedules", "why_tests_cant": "schedules and chunk boundaries", "anchors": ["helios-chain/versiondb/extsort/sort.go: Feed, Finalize", "helios-chain/versiondb/extsort/merge.go: MultiWayMerge", "helios-chain/versiondb/extsort/delta_encoding.go", "helios-chain/versiondb/client/convert_to_sst.go: encodeSorterItem, decodeSorterItem, compareSorterItem"]}
{"id": "C62", "title": "bridge: who is slashed for missing confirmations", "statement": "A validator is slashed for a validator set request or a batch exactly if it was present and registered when it was made and did not confirm it within the window, and never twice for the same one, over every history of blocks.", "quantifier": "all histories of blocks, all sets of validators, requests, batches and confirmations", "why_tests_cant": "what is slashed depends on the order of keys and on counters kept over the whole history", "anchors": ["helios-chain/x/hyperion/abci.go: valsetSlashing, batchSlashing", "helios-chain/x/hyperion/keeper/keeper.go: GetUnslashedValsets", "helios-chain/x/hyperion/keeper/batch.go: GetUnslashedBatches"]}
{"id": "C63", "title": "EVM: only instruction starts are jump destinations", "statement": "A jump is accepted exactly if its target is inside the code, the byte there is JUMPDEST, and the byte is an instruction and not data of a PUSH, for every code and every target word.", "quantifier": "all codes of any length, all 256-bit targets", "why_tests_cant": "the bitmap is filled eight or sixteen bits at a time with different code for different widths; alignment and length combinations are unbounded", "anchors": ["helios-chain/x/evm/core/vm/analysis.go: codeBitmap, codeBitmapInternal, set1, setN, set8, set16, codeSegment", "helios-chain/x/evm/core/vm/contract.go: validJumpdest, isCode, GetOp"]}
{"id": "C64", "title": "EVM: memory and call gas", "statement": "What is paid for memory depends on its final size only and is 3 per word plus the square over 512; sizes beyond the limit are refused; a call that can be paid passes on at most all but one 64th of what remains after all other costs, exactly what is asked for if that is less, and no unchecked 64-bit arithmetic ever makes a call cheaper.", "quantifier": "all sequences of expansions, all gas amounts below 2^64, all call arguments", "why_tests_cant": "overflow at the edges of 64-bit arithmetic, where two of the operations are unchecked", "anchors": ["helios-chain/x/evm/core/vm/gas_table.go: memoryGasCost, gasCall, gasCallCode, gasDelegateCall, gasStaticCall", "helios-chain/x/evm/core/vm/gas.go: callGas", "helios-chain/x/evm/core/vm/common.go: toWordSize", "helios-chain/x/evm/core/vm/operations_acl.go: makeCallVariantGasCallEIP2929"]}
{"id": "C65", "title": "EVM: storage writes are charged by their effect", "statement": "Net of refunds a run of writes costs 100 for each, 2100 for each slot touched for the first time and an amount that depends only on the values at the start of the transaction, before and after the run; the refund counter never goes below zero, whatever is written, read, snapshotted and reverted.", "quantifier": "all sequences of writes, reads, snapshots and reverts over all slots and values", "why_tests_cant": "the counter's underflow is a panic that would stop the node; whether it can happen depends on the whole history of the transaction", "anchors": ["helios-chain/x/evm/core/vm/operations_acl.go: makeGasSStoreFunc", "helios-chain/x/evm/statedb/statedb.go: AddRefund, SubRefund"]}
{"id": "C66", "title": "EVM: every execution ends, and its result is determined", "statement": "A call or creation with g gas ends after at most g rounds of the interpreter, nested calls included, whatever the code, input and state; never more gas comes back than was given; the result is a function of the arguments.", "quantifier": "all codes, inputs, states, gas amounts below 2^64, all nestings of calls and creations", "why_tests_cant": "an instruction that is free by mistake, or gas that is given back twice, makes a loop that stops the chain; it needs one particular program to show", "anchors": ["helios-chain/x/evm/core/vm/interpreter.go: Run", "helios-chain/x/evm/core/vm/evm.go: Call, CallCode, DelegateCall, StaticCall, create", "helios-chain/x/evm/core/vm/instructions.go", "helios-chain/x/evm/core/vm/jump_table.go", "helios-chain/x/evm/core/vm/memory_table.go", "helios-chain/x/evm/statedb/statedb.go"]}
{"id": "C67", "title": "EVM: no code makes the machine panic", "statement": "Whatever code and input, the interpreter never reads or writes outside stack, memory, code or return data, the gas function of storage never meets an impossible case and the refund counter never underflows, as long as precompiled contracts leave storage and access list alone; the stack has at most 1024 words and memory only what was paid for.", "quantifier": "all codes, inputs and states at the start of a transaction, all nestings of calls and creations", "why_tests_cant": "the checks of stack, memory size and access list are in different tables from the code that relies on them; one wrong entry is a crash only for one particular program", "anchors": ["helios-chain/x/evm/core/vm/interpreter.go: Run", "helios-chain/x/evm/core/vm/evm.go: Call, CallCode, DelegateCall, StaticCall, create", "helios-chain/x/evm/core/vm/instructions.go", "helios-chain/x/evm/core/vm/jump_table.go", "helios-chain/x/evm/core/vm/memory_table.go", "helios-chain/x/evm/statedb/statedb.go", "helios-chain/x/evm/core/vm/stack_table.go", "helios-chain/x/evm/core/vm/memory.go"]}
{"id": "C68", "title": "EVM: static calls change nothing", "statement": "A static call changes no balance, nonce, code, storage, log, refund or self-destruct mark, however deeply the called code calls on.", "quantifier": "all codes, inputs and states, all nestings", "why_tests_cant": "the mode has to be handed down through every kind of call", "anchors": ["helios-chain/x/evm/core/vm/interpreter.go: Run", "helios-chain/x/evm/core/vm/evm.go: Call, CallCode, DelegateCall, StaticCall, create", "helios-chain/x/evm/core/vm/instructions.go", "helios-chain/x/evm/core/vm/jump_table.go", "helios-chain/x/evm/core/vm/memory_table.go", "helios-chain/x/evm/statedb/statedb.go", "helios-chain/precompiles/common/precompile.go: RunSetup"]}
{"id": "C69", "title": "EVM: failed calls leave no trace", "statement": "A call that reverts or fails leaves exactly the state in which it was made; a failed creation leaves only the creator's increased nonce, or nothing if it was refused; all errors but a revert use up the gas.", "quantifier": "all callees (any behaviour), inputs and states, all kinds of calls", "why_tests_cant": "everything the callee did on the way, in any depth, has to be undone", "anchors": ["helios-chain/x/evm/core/vm/interpreter.go: Run", "helios-chain/x/evm/core/vm/evm.go: Call, CallCode, DelegateCall, StaticCall, create", "helios-chain/x/evm/core/vm/instructions.go", "helios-chain/x/evm/core/vm/jump_table.go", "helios-chain/x/evm/core/vm/memory_table.go", "helios-chain/x/evm/statedb/statedb.go"]}
{"id": "C70", "title": "EVM: executions neither create nor lose coins", "statement": "The sum of all balances before and after a call or creation is the same, up to what contracts destroyed by naming themselves as heirs, and no balance becomes negative.", "quantifier": "all codes, inputs, values and states, all nestings", "why_tests_cant": "ranges over all programs, with reentrance, failing calls, creations and self-destructs in any order", "anchors": ["helios-chain/x/evm/core/vm/interpreter.go: Run", "helios-chain/x/evm/core/vm/evm.go: Call, CallCode, DelegateCall, StaticCall, create", "helios-chain/x/evm/core/vm/instructions.go", "helios-chain/x/evm/core/vm/jump_table.go", "helios-chain/x/evm/core/vm/memory_table.go", "helios-chain/x/evm/statedb/statedb.go", "helios-chain/x/evm/core/core/utils.go: CanTransfer, Transfer"]}
{"id": "C71", "title": "EVM: code cannot take from wallets", "statement": "A transaction leaves every wallet (an account without code and with a nonce) other than its sender alone: the balance does not fall, and nonce, code and storage stay, whatever contracts run, given that precompiled contracts touch only their caller and the sender.", "quantifier": "all codes, inputs, values and states, all wallets", "why_tests_cant": "ranges over all programs", "anchors": ["helios-chain/x/evm/core/vm/interpreter.go: Run", "helios-chain/x/evm/core/vm/evm.go: Call, CallCode, DelegateCall, StaticCall, create", "helios-chain/x/evm/core/vm/instructions.go", "helios-chain/x/evm/core/vm/jump_table.go", "helios-chain/x/evm/core/vm/memory_table.go", "helios-chain/x/evm/statedb/statedb.go"]}
{"id": "C72", "title": "EVM: every instruction does what its description says", "statement": "The arithmetic, comparison and bit instructions give the words of the integer operations (two's complement for the signed ones, zero for division by zero); every other instruction takes the words, reads and writes the bytes of memory, the slot, balance, log, call or jump its description says and nothing else, wherever it stands, as soon as its gas can be paid; otherwise the frame fails.", "quantifier": "all 256-bit operands, stacks, memories, codes, inputs and states", "why_tests_cant": "256-bit operands and offsets with their corner cases (sign, overflow, offsets beyond 2^64, zero lengths) cannot be enumerated", "anchors": ["helios-chain/x/evm/core/vm/interpreter.go: Run", "helios-chain/x/evm/core/vm/evm.go: Call, CallCode, DelegateCall, StaticCall, create", "helios-chain/x/evm/core/vm/instructions.go", "helios-chain/x/evm/core/vm/jump_table.go", "helios-chain/x/evm/core/vm/memory_table.go", "helios-chain/x/evm/statedb/statedb.go", "helios-chain/x/evm/core/vm/memory.go", "helios-chain/x/evm/core/vm/opcodes.go"]}
{"id": "C73", "title": "EVM: compiled expressions compute their value", "statement": "A contract that consists of the code of an arithmetic expression over the call data, followed by storing and returning the result, returns exactly the 32 bytes of the value of the expression and uses exactly the sum of the published costs; with one gas less it fails and leaves no trace.", "quantifier": "all expressions, all call data, all states, callers, values and gas amounts", "why_tests_cant": "ranges over programs of any size", "anchors": ["helios-chain/x/evm/core/vm/interpreter.go: Run", "helios-chain/x/evm/core/vm/evm.go: Call, CallCode, DelegateCall, StaticCall, create", "helios-chain/x/evm/core/vm/instructions.go", "helios-chain/x/evm/core/vm/jump_table.go", "helios-chain/x/evm/core/vm/memory_table.go", "helios-chain/x/evm/statedb/statedb.go"]}
{"id": "C74", "title": "Addresses as text are read as the address they stand for", "statement": "The bech32 text of an address is read back as that address and only by its own prefix; a text has one reading, and two texts with the same reading differ only in case; one or two mistyped characters are always refused; the helper that accepts any kind of address (hexadecimal, account, validator) returns the address that was written.", "quantifier": "all addresses, all texts", "why_tests_cant": "2^160 addresses; which of them contain particular letters in their text is accidental", "anchors": ["helios-chain/precompiles/common/types.go: AnyToHexAddress, HexAddressFromBech32String, AccAddressFromHexAddress", "helios-chain/types/config.go"]}
{"id": "C75", "title": "Scheduled calls: the deposit is the owner's and comes back", "statement": "Creating a scheduled call takes exactly the deposit from the signer and puts it in a wallet of a fresh identifier; nobody but the owner changes, cancels or empties it, whatever else happens; cancelling is always possible and pays the whole wallet to the owner; cancelled identifiers are never used again; counters and indexes agree with the calls.", "quantifier": "all histories of creations, callbacks, updates, cancellations and other transactions (fewer than 2^64-2), all owners", "why_tests_cant": "ranges over histories and over addresses; the failing cases need particular identifiers", "anchors": ["helios-chain/x/chronos/keeper/msg_server.go", "helios-chain/x/chronos/keeper/keeper.go: CronInTransfer, CronOutTransfer, AddCron, RemoveCron", "helios-chain/x/chronos/module.go: EndBlock", "helios-chain/precompiles/chronos"]}
{"id": "C76", "title": "Scheduled calls: the queue holds exactly the calls that wait", "statement": "A call whose callback has arrived stands in the queue exactly once, under its gas price; calls that do not wait and cancelled calls do not stand in it.", "quantifier": "all histories of creations, callbacks, updates, cancellations and other transactions", "why_tests_cant": "queue and records are changed in different places; the combination that breaks them is one particular order of requests", "anchors": ["helios-chain/x/chronos/keeper/keeper.go: ExistsInCronQueue, AppendToCronQueue, RemoveFromCronQueue, StoreCronCallBackData", "helios-chain/x/chronos/types/keys.go: GetFeeSecondIndexKey"]}
{"id": "C77", "title": "A whole Ethereum transaction charges what it says and nothing else", "statement": "A delivered Ethereum transaction creates and loses no coins; refused, it changes nothing; an error costs the sender the fee of the gas limit and nothing else happens, a failed execution the fee of the gas used; a successful one costs the sender at most value and gas used, pays the collector the fee but for the developer's share, pays the developer that share, and takes from no other account without code; it ends in an error only for the stated reasons.", "quantifier": "all transactions, contracts, states, parameters; all histories for the conservation", "why_tests_cant": "ranges over all programs that the transaction may run", "anchors": ["helios-chain/x/evm/core/vm/interpreter.go: Run", "helios-chain/x/evm/core/vm/evm.go: Call, CallCode, DelegateCall, StaticCall, create", "helios-chain/x/evm/core/vm/instructions.go", "helios-chain/x/evm/core/vm/jump_table.go", "helios-chain/x/evm/core/vm/memory_table.go", "helios-chain/x/evm/statedb/statedb.go", "helios-chain/x/evm/keeper/state_transition.go: ApplyTransaction, ApplyMessageWithConfig", "helios-chain/app/ante/evm/mono.go: AnteHandle", "helios-chain/x/evm/statedb/statedb.go: Commit", "helios-chain/x/evm/keeper/gas.go: RefundGas", "helios-chain/x/revenue/v1/keeper/evm_hooks.go: PostTxProcessing"]}
{"id": "C78", "title": "No Ethereum transaction is delivered twice", "statement": "Accepted transactions of a sender have strictly growing nonces, whatever they and others run in between; so no transaction is accepted twice.", "quantifier": "all histories of transactions and other changes that do not lower nonces, all contracts", "why_tests_cant": "replay needs some program or sequence that resets a nonce; all of them have to be excluded", "anchors": ["helios-chain/app/ante/evm/10_increment_sequence.go", "helios-chain/x/evm/keeper/state_transition.go: ApplyMessageWithConfig", "helios-chain/x/evm/statedb/statedb.go: Commit"]}
{"id": "C79", "title": "Developer shares belong to the account that deployed the contract", "statement": "A contract is registered only for an account that made it, directly or through contracts it made; only that account changes or cancels who is paid; the payee is whom it named last; the indexes list exactly the contracts of each deployer and of each withdrawer; export and import keep the payees.", "quantifier": "all histories of creations, registrations, updates, cancellations and parameter changes", "why_tests_cant": "ranges over histories and over address derivations", "anchors": ["helios-chain/x/revenue/v1/keeper/msg_server.go: RegisterRevenue, UpdateRevenue, CancelRevenue", "helios-chain/x/revenue/v1/keeper/evm_hooks.go: PostContractCreation", "helios-chain/x/revenue/v1/genesis.go: InitGenesis, ExportGenesis"]}
{"id": "C80", "title": "Calls of precompiled contracts are part of the transaction", "statement": "A call of a precompiled contract, and every call that contains one, takes effect as a whole or leaves no trace, in accounts, storage of contracts and all other modules; what is stored at the end is what the transaction saw; coins neither appear nor disappear.", "quantifier": "all sequences of operations, snapshots, reverts and calls of precompiled contracts with any handlers", "why_tests_cant": "ranges over interleavings of nested calls, reverts and handlers; the damage shows only in some of them", "anchors": ["helios-chain/precompiles/common/precompile.go: RunSetup, AddJournalEntries", "helios-chain/x/evm/statedb/statedb.go: Commit, CommitWithCacheCtx, AddPrecompileFn, RevertToSnapshot", "helios-chain/x/evm/statedb/journal.go: precompileCallChange", "helios-chain/precompiles/staking/tx.go: Delegate", "helios-chain/precompiles/chronos/chronos.go: Run", "helios-chain/precompiles/gov/gov.go: Run"]}
{"id": "C81", "title": "Coins behave as ERC-20 tokens", "statement": "A call of the token contract of a coin that succeeds was permitted by balances and allowances and changes exactly the balances and the allowance that EIP-20 says, of this token only; a permitted call succeeds; nobody loses coins without acting or having granted an allowance; only the owner raises an allowance and only spending, the owner or expiry lowers it; a spender moves no more than was granted; the Transfer logs tell the balances and the Approval logs the allowances; coins neither appear nor vanish.", "quantifier": "all histories of token calls by any callers, bank and authz messages, minting, burning and passing of time, over any number of coins that share grants", "why_tests_cant": "ranges over histories of grants shared by several tokens and with other modules", "anchors": ["helios-chain/precompiles/erc20/tx.go: Transfer, TransferFrom, transfer", "helios-chain/precompiles/erc20/approve.go: Approve, IncreaseAllowance, DecreaseAllowance, createAuthorization, updateAuthorization, removeSpendLimitOrDeleteAuthorization", "helios-chain/precompiles/erc20/query.go: BalanceOf, Allowance, GetAuthzExpirationAndAllowance", "helios-chain/precompiles/erc20/events.go: EmitTransferEvent, EmitApprovalEvent"]}
{"id": "C82", "title": "Precompiled contracts act for an account only with its consent", "statement": "A call of the staking, distribution, governance, bridge, scheduling, logo or token-creation contract acts for no account but the caller and the account that signed the transaction; moving another's stake needs a grant of that account which covers kind, validator, coin and amount, and is charged to it; over any history a grantee moves no more than it was allowed; grants change only by their granter's own doing or by use; everyone else is left alone. A contract does nothing in the signer's name that the signer did not grant.", "quantifier": "all histories of calls by any origins and callers with any arguments, authz messages and passing of time, whatever the messages do to the rest of the chain", "why_tests_cant": "ranges over histories of grants, nested callers and unknown effects of messages", "anchors": ["helios-chain/precompiles/staking/tx.go: Delegate, Undelegate, CancelUnbondingDelegation, CreateValidator, EditValidator, Unjail", "helios-chain/precompiles/staking/approve.go: Approve, Revoke, IncreaseAllowance, DecreaseAllowance, UpdateStakingAuthorization", "helios-chain/precompiles/authorization/types.go: CheckAuthzAndAllowanceForGranter", "helios-chain/precompiles/distribution/tx.go", "helios-chain/precompiles/gov/tx.go", "helios-chain/precompiles/hyperion/methods.go", "helios-chain/precompiles/chronos/methods.go"]}
{"id": "C83", "title": "A gas estimate is the least gas the transaction works with", "statement": "A gas estimate is a gas limit the caller may use and can pay for together with the value; the transaction runs through with it, and (if more gas never hurts) with no smaller one; if some usable limit works, the query gives an estimate; it is refused only if none works. Every query is answered after at most 64 trial runs.", "quantifier": "all queries (gas cap, gas argument, block limit, fee cap, balance, value) and all transactions, given as any function from gas limits to outcomes", "why_tests_cant": "the outcome is an arbitrary function of the gas limit and all numbers are 64-bit or larger", "anchors": ["helios-chain/x/evm/types/utils.go: BinSearch", "helios-chain/x/evm/keeper/grpc_query.go: EstimateGasInternal"]}
{"id": "C84", "title": "Ethereum transactions enter the chain only as themselves", "statement": "An Ethereum transaction takes effect only in an envelope with the Ethereum extension option that holds nothing else: never beside other messages, never inside delegated executions at any depth. The envelope is fixed by the transaction, so nobody can change it on the way, and the one the node builds is accepted. Disabled types are neither granted nor executed by delegation; harmless delegated executions up to the stated nesting pass.", "quantifier": "all transactions: messages nested to any depth and width, all extension options, all fields of the envelope", "why_tests_cant": "ranges over trees of messages and all envelopes", "anchors": ["helios-chain/app/ante/ante.go: NewAnteHandler", "helios-chain/app/ante/cosmos/authz.go: checkDisabledMsgs", "helios-chain/app/ante/cosmos/reject_msgs.go: AnteHandle", "helios-chain/app/ante/evm/04_validate.go: ValidateTx, CheckTxFee, ValidateMsg", "helios-chain/app/ante/evm/mono.go: AnteHandle", "helios-chain/x/evm/types/msg.go: ValidateBasic, BuildTx"]}
{"id": "C85", "title": "Queries for logs give exactly the matching logs", "statement": "A query for logs of a range of blocks, or of one block given by its hash, gives exactly the logs of those blocks (of their transactions and scheduled calls) that match addresses and topics, in order, or an error if the range is too wide or the logs too many. The bloom filters of blocks make no difference to the answer.", "quantifier": "all chains, criteria, ranges and limits, and all assignments of bloom bits", "why_tests_cant": "no false negatives must hold for every set of logs and every assignment of bits", "anchors": ["helios-chain/rpc/namespaces/ethereum/eth/filters/filters.go: Logs, blockLogs, cronBlockLogs", "helios-chain/rpc/namespaces/ethereum/eth/filters/utils.go: FilterLogs, bloomFilter", "helios-chain/x/evm/keeper/state_transition.go: ApplyTransaction", "helios-chain/x/evm/keeper/abci.go: EndBlock"]}
{"id": "C86", "title": "Every Ethereum transaction is found by its hash and by its place", "statement": "Every Ethereum transaction of the chain is found by its hash and by height and number in the block, with what became of it, whatever the node's history of stops, starts and failed writes; nothing else is found; and the transaction at a number is the one the block lists there, with and without the index.", "quantifier": "all chains of blocks with executed, failed and refused transactions of any number of messages, and all histories of the indexing service", "why_tests_cant": "depends on all histories of restarts and failures and on the encoding of every event of every transaction", "anchors": ["helios-chain/indexer/kv_indexer.go: IndexBlock, GetByTxHash, GetByBlockAndIndex, LoadLastBlock", "helios-chain/server/indexer_service.go: OnStart", "helios-chain/rpc/types/events.go: ParseTxResult, GetTxByTxIndex", "helios-chain/rpc/backend/tx_info.go: GetTransactionByBlockAndIndex, GetTxByTxIndex", "helios-chain/rpc/backend/blocks.go: EthMsgsFromTendermintBlock"]}
{"id": "C87", "title": "Receipts tell what became of a transaction", "statement": "The receipt of a transaction by its hash, and its receipt in the list of its block, say whether it succeeded, the gas it used, the gas used in the block up to it, its logs and its place; cumulative gas grows along the block and ends within the gas of the block.", "quantifier": "all blocks and all transactions in them", "why_tests_cant": "must hold for every mixture of transactions in a block", "anchors": ["helios-chain/rpc/backend/tx_info.go: GetTransactionReceipt, GetAllTransactionReceiptsByBlockNumber, GetTransactionLogs", "helios-chain/rpc/backend/utils.go: TxLogsFromEvents", "helios-chain/rpc/backend/blocks.go: gas used of a block"]}
{"id": "C88", "title": "An Ethereum transaction and its message stand for the same thing", "statement": "A transaction wrapped into the chain's message and unwrapped again is the same transaction, whatever its kind; its message carries its hash; two transactions never share a message. Every transaction with numbers of at most 256 bits can be wrapped, and the chain admits the message exactly if the gas limit, fee, caps and signature are within the stated bounds. One transaction has one message form, and no transaction crashes the wrapping.", "quantifier": "all transactions of the three kinds, with access lists of any length, and all messages", "why_tests_cant": "must hold for all numbers, texts and lists", "anchors": ["helios-chain/x/evm/types/msg.go: FromEthereumTx, AsTransaction, ValidateBasic", "helios-chain/x/evm/types/legacy_tx.go", "helios-chain/x/evm/types/access_list_tx.go", "helios-chain/x/evm/types/dynamic_fee_tx.go", "helios-chain/x/evm/types/access_list.go", "helios-chain/utils/eth/eth.go: DeriveChainID"]}
{"id": "C89", "title": "A node sends what its user asked for", "statement": "A signed transaction goes out as given, under its own hash, exactly if it is admissible. A transaction the node signs has every field the user gave, names the node's own chain, and has the rest filled in consistently (tip at most the fee cap, cap of tip and twice the base fee, next nonce, gas estimate); contradictory arguments are refused; fees above the node's limit are refused. The next nonce is the first free one, and pending transactions can be sent again.", "quantifier": "all arguments, all nodes (base fee, suggested tip, estimates), all keyrings, signatures and mempools", "why_tests_cant": "must hold for every combination of given and absent fields and every mempool", "anchors": ["helios-chain/rpc/backend/sign_tx.go: SendTransaction", "helios-chain/rpc/backend/call_tx.go: SetTxDefaults, SendRawTransaction, Resend", "helios-chain/x/evm/types/tx_args.go: ToTransaction", "helios-chain/rpc/backend/utils.go: getAccountNonce", "helios-chain/rpc/backend/chain_info.go: PendingTransactions"]}
{"id": "C90", "title": "The suggested gas price is enough for the next block", "statement": "A transaction at the gas price the node suggests is accepted in the next block, whatever gas the newest block used: it covers the next base fee and the least price of the chain.", "quantifier": "all parameters of the fee market, all base fees, block limits and amounts of gas used", "why_tests_cant": "the base fee of the next block depends on unbounded decimal arithmetic with rounding", "anchors": ["helios-chain/rpc/backend/chain_info.go: SuggestGasTipCap, GlobalMinGasPrice", "helios-chain/rpc/backend/call_tx.go: GasPrice", "helios-chain/x/feemarket/keeper/eip1559.go: CalculateBaseFee", "helios-chain/app/ante/evm/03_global_fee.go: CheckGlobalFee", "helios-chain/app/ante/evm/07_can_transfer.go: CanTransfer"]}
{"id": "C91", "title": "The history of fees tells what the blocks had", "statement": "The fee history of a range of blocks gives the base fee, the share of gas used and, for each percentile asked for, the tip at that share of the gas, of each of its blocks, and the base fee after the last one, independently of what was asked before.", "quantifier": "all chains, ranges, percentiles and histories of requests", "why_tests_cant": "answers depend on a cache filled by all requests before", "anchors": ["helios-chain/rpc/backend/chain_info.go: FeeHistory", "helios-chain/rpc/backend/utils.go: processBlock", "helios-chain/rpc/types/utils.go: EthHeaderFromTendermint"]}
{"id": "C92", "title": "A signature over typed data stands for one order", "statement": "A signature by an Ethereum wallet over the typed data of a Cosmos transaction is accepted for no transaction that says something else: not for other messages, fees, memos, accounts, sequences or chains, and not for a transaction in which someone else pays. What the typed data does not cover cannot be in a transaction so signed. The forms of what is signed (plain bytes, typed data, its older form) never meet.", "quantifier": "all documents of any depth and number of messages, all tables of types made for them, all transactions in direct mode", "why_tests_cant": "must hold for every pair of documents; the encoding is recursive over types made from the values", "anchors": ["helios-chain/eip712/encoding.go: GetEIP712BytesForMsg, decodeAminoSignDoc, decodeProtobufSignDoc", "helios-chain/eip712/message.go: createEIP712MessagePayload", "helios-chain/eip712/types.go: createEIP712Types", "helios-chain/eip712/domain.go", "helios-chain/eip712/encoding_legacy.go", "helios-chain/eip712/eip712_legacy.go", "helios-chain/crypto/ethsecp256k1/ethsecp256k1.go: VerifySignature", "helios-chain/app/ante/typeddata/typed_data.go: EncodeType, EncodeData, HashStruct"]}
{"id": "C93", "title": "Polling filters give each event once and do not disturb each other", "statement": "Polls of a filter give only what it asked for, out of events of the chain, each at most once and in order, and miss none that happened while it was there. Removing a filter, by its owner or by time-out, affects no other filter and stops its work; a filter that is gone stays gone; there are never more than the limit, and no sequence of requests brings the node down.", "quantifier": "all schedules of clients' requests, events and goroutines, without bound", "why_tests_cant": "depends on the interleaving of several goroutines over unbuffered channels; tests see a few schedules", "anchors": ["helios-chain/rpc/namespaces/ethereum/eth/filters/api.go: NewFilter, NewBlockFilter, NewPendingTransactionFilter, GetFilterChanges, UninstallFilter, timeoutLoop", "helios-chain/rpc/namespaces/ethereum/eth/filters/filter_system.go: subscribe, eventLoop, consumeEvents", "helios-chain/rpc/namespaces/ethereum/eth/filters/subscription.go: Unsubscribe", "helios-chain/rpc/ethereum/pubsub/pubsub.go"]}
{"id": "C94", "title": "Tokens sent over IBC are never lost", "statement": "A transfer of a registered ERC-20 token over IBC takes exactly its amount from the sender's coins and tokens together; if it fails the amount is given back exactly once, and if it arrives it is never given back. Vouchers at the other end can always come home, to their recipient in full, and nobody's holding is lessened by what others do.", "quantifier": "all histories of transfers, acknowledgements, time-outs, returns, conversions, payments and switches, over any number of channels", "why_tests_cant": "depends on histories over two chains and on interplay of conversion, escrow, vesting and switches of governance", "anchors": ["helios-chain/x/ibc/transfer/keeper/msg_server.go: Transfer", "helios-chain/x/erc20/keeper/ibc_callbacks.go: OnRecvPacket, OnAcknowledgementPacket, OnTimeoutPacket, ConvertCoinToERC20FromPacket", "helios-chain/x/erc20/ibc_middleware.go", "helios-chain/x/erc20/keeper/msg_server.go: ConvertERC20, ConvertCoinNativeERC20"]}
{"id": "C95", "title": "Equal stakes count equally, as the weight of their asset says", "statement": "Whatever assets governance adds, removes, brings back and re-weights, a delegation's voting power is its amount times the current weight of its asset, so that equal amounts of an asset count equally whenever they were delegated; and weights stay at least one.", "quantifier": "all histories of additions, removals, updates of weights and delegations, over any number of assets", "why_tests_cant": "the weight and the weighted amounts are kept in two places and changed by two computations with different rounding; whether they stay together depends on whole histories", "anchors": ["helios-chain/x/erc20/keeper/msg_server.go: AddAssetConsensus, RemoveAssetConsensus, UpdateAssetConsensus, getAdjustmentFactors, applyWeightAdjustment", "helios-chain/x/erc20/keeper/whitelist.go: AddAssetToConsensusWhitelist, ArchiveAssetInConsensusWhitelist, UnarchiveAssetInConsensusWhitelist, UpdateAssetNativeSharesWeight", "helios-chain/x/erc20/proposal_handler.go"]}
{"id": "C96", "title": "A registration with a bridge is one validator's own, and ends when they leave", "statement": "Each bridge keeps for each validator at most one orchestrator and one Ethereum address, no two validators share either, lookups by address and by validator agree, only a validator changes its own registration, and leaving ends it entirely, so that it can be made again and survives an export of the state. A transfer out is accepted only if its fee is at least the least fee a registered validator asks for.", "quantifier": "all histories of registrations, changes and deletions of fees, departures, and changes of validators and of the list of orchestrators", "why_tests_cant": "four maps are kept in step by messages that each change some of them; whether they agree depends on whole histories of several senders", "anchors": ["helios-chain/x/hyperion/keeper/msg_server_helios.go: SetOrchestratorAddresses, SetOrchestratorAddressesWithFee, UpdateOrchestratorAddressesFee, DeleteOrchestratorAddressesFee, UnSetOrchestratorAddresses", "helios-chain/x/hyperion/keeper/keeper.go: SetEthAddressForValidator, SetFeeForValidator, GetLowestFeeValidator, GetOrchestratorAddresses", "helios-chain/x/hyperion/keeper/msg_server_hyperion.go: SendToChain", "helios-chain/x/hyperion/keeper/genesis.go"]}
{"id": "C97", "title": "Limits on requests hold, and cannot be evaded", "statement": "Within any window of time a node answers at most the configured number of requests of a client and of calls of each method, works no longer for a client than configured, and serves no more connections at a time than configured; requests within the limits are not refused. Clients are told apart by their address: they can neither evade nor lift their limits. What the node remembers stays bounded, and no sequence of requests brings it down.", "quantifier": "all schedules of any number of clients, requests, steps of the checks, ends and time-outs, and all configurations", "why_tests_cant": "counts over sliding windows under all interleavings of requests; races on maps; evasion by chosen headers, bodies and ports", "anchors": ["helios-chain/server/middleware/rate_limiter.go: Allow", "helios-chain/server/middleware/method_rate_limiter.go: Allow", "helios-chain/server/middleware/connection_limiter.go", "helios-chain/server/middleware/compute_time_tracker.go: PredictComputeTime, AddComputeTime", "helios-chain/server/middleware/middleware.go", "helios-chain/server/json_rpc.go: StartJSONRPC", "helios-chain/server/routes/rpc_routes.go"]}
{"id": "C98", "title": "Cached answers are the method's own and recent", "statement": "An answer given from the cache of a node is the last one its method gave to exactly the same question, and not older than answers of that method are kept; failures are never given from it, and it keeps no more than its capacity. Answers to a question never go back to an older one, do not contradict other answers, and the cache keeps repeated questions away from the methods.", "quantifier": "all schedules of any number of requests, ends of methods and clean-ups, all capacities and times, all methods and arguments", "why_tests_cant": "requests interleave with each other, with expiry and with eviction; keys must differ for all pairs of questions", "anchors": ["helios-chain/rpc/cache/cache.go: GetBlock, SetBlockWithTTL, Cleanup, generateKey", "helios-chain/rpc/namespaces/ethereum/eth/cached_api.go: interceptMethodCall, callMethod, StartCleanupCacheRoutine"]}
{"id": "C99", "title": "WebSocket clients get their answers and exactly their notifications", "statement": "A request over a WebSocket gets the answer the same request gets over HTTP, with its own id. A subscriber is notified of every event reported from its subscription to its cancellation that matches its criteria, each once and in order, by notifications that carry what a query would give and follow the answer that names the subscription; it gets no notifications of other clients and cannot cancel their subscriptions. A subscription that ended holds no resources of the node.", "quantifier": "all requests, criteria, answers and headers; all schedules of connections, subscriptions, cancellations, events, handling by goroutines and disconnections", "why_tests_cant": "goroutines, the bus and the read loop interleave; numbers and criteria range over all JSON values", "anchors": ["helios-chain/rpc/websockets.go: readLoop, tcpGetAndSendResponse, subscribe, subscribeNewHeads, subscribeLogs, subscribePendingTransactions, unsubscribe", "helios-chain/rpc/ethereum/pubsub/pubsub.go", "helios-chain/rpc/namespaces/ethereum/eth/filters/filter_system.go", "helios-chain/rpc/types/utils.go: EthHeaderFromTendermint"]}
{"id": "C100", "title": "Allowances for IBC transfers bound what contracts send", "statement": "Through the ICS-20 contract, coins leave only the account that signed or the contract that calls. A contract sends coins of the signer only under a grant the signer gave it: over that channel, to the receivers and with the memos allowed, before the grant expires, and in total never more than was approved and raised minus what was lowered. approve, increaseAllowance, decreaseAllowance and revoke change exactly the allowance they name, and only that of the signer; allowance shows what is left; after a revocation nothing is sent. A contract sends its own coins without asking anybody.", "quantifier": "all grants, channels, coins, amounts and times; all histories of calls, transfers (with calls made by token code while they are under way), Cosmos messages and blocks", "why_tests_cant": "limits are used up over histories of calls from different contracts and modules; tests approve once and send once", "anchors": ["helios-chain/precompiles/ics20/approve_common.go: Approve, Revoke, IncreaseAllowance, DecreaseAllowance, AcceptGrant, UpdateGrant", "helios-chain/precompiles/ics20/tx.go: Transfer", "helios-chain/precompiles/ics20/types.go: NewTransferAuthorization, checkAllocationExists, CheckAndAcceptAuthorizationIfNeeded, UpdateGrantIfNeeded", "helios-chain/precompiles/ics20/query.go: Allowance", "helios-chain/x/ibc/transfer/keeper/msg_server.go: Transfer"]}
{"id": "C101", "title": "Pages of blocks and transactions show the whole list", "statement": "Blocks, transactions and the transactions of an account can be read page by page: page n of size s shows entries (n-1)s+1 to ns of the list, newest first, never more than s; every block and every transaction is on exactly one page; who reads on while the chain grows misses nothing.", "quantifier": "all chains, numbers of transactions of both kinds in blocks, pending transactions, pages and sizes; all growths of the chain between readings", "why_tests_cant": "positions depend on the whole chain, and the search goes back by thousands of blocks", "anchors": ["helios-chain/rpc/backend/blocks.go: GetBlocksByPageAndSize", "helios-chain/rpc/backend/tx_info.go: GetTransactionsByPageAndSize", "helios-chain/rpc/backend/account_info.go: GetAccountTransactionsByPageAndSize"]}
{"id": "C102", "title": "The history of bridge transfers is kept and shown", "statement": "Every finished transfer over the bridge is kept for its sender and its receiver, once each, in order, for ever. Asking for the transfers of an account page by page shows those under way and then the finished ones, newest first, each on exactly one page. A page holds no more than was asked for.", "quantifier": "all histories of finished transfers, all sets of transfers under way, all pages and sizes", "why_tests_cant": "the page is put together from four lists whose lengths differ for every account", "anchors": ["helios-chain/x/hyperion/keeper/archive_tx.go: StoreFinalizedTx, StoreLastFinalizedTxIndex, FindLastFinalizedTxIndex, FindFinalizedTxsByIndexToIndex", "helios-chain/x/hyperion/keeper/grpc_query_helios.go: QueryGetTransactionsByPageAndSize", "helios-chain/rpc/backend/hyperion.go: GetHyperionAccountTransferTxsByPageAndSize, GetAllHyperionTransferTxs"]}
{"id": "C103", "title": "Access control and built-in contracts go by address", "statement": "Governance decides who may call and deploy contracts: everybody but those listed, only those listed, or nobody. Whatever contracts do within a transaction, code runs and contracts are deployed only for those allowed, and nobody else is held back; a refused call changes nothing. At each address the same built-in contract answers throughout a transaction: one of the nine standard ones, an activated one of the chain's own, or that of a token. An entry of a list counts for the address it reads as, and no parameters that are accepted make calls fail.", "quantifier": "all parameters, addresses and ways to write them; all sequences of calls, deployments and returns at any depth", "why_tests_cant": "each call replaces the table of built-in contracts of the whole transaction; access is checked at every depth against two addresses", "anchors": ["helios-chain/x/evm/types/permissions.go", "helios-chain/x/evm/types/opcodes_hooks.go", "helios-chain/x/evm/types/params.go: Validate, validateAllowlistAddresses, ValidatePrecompiles", "helios-chain/x/evm/keeper/precompiles.go: GetPrecompileInstance, GetPrecompilesCallHook", "helios-chain/x/evm/keeper/static_precompiles.go: GetStaticPrecompileInstance, IsAvailableStaticPrecompile", "helios-chain/x/evm/keeper/params.go: SetParams, EnableStaticPrecompiles", "helios-chain/x/evm/core/vm/evm.go: Call, CallCode, DelegateCall, StaticCall, Create, Create2", "helios-chain/x/erc20/keeper/precompiles.go: GetERC20PrecompileInstance"]}
{"id": "C104", "title": "The standard built-in contracts answer as Ethereum's", "statement": "The contracts at the addresses 1 to 9 cost what Ethereum's cost (EIP-198/2565, EIP-1108, EIP-152 and the Yellow Paper) and answer the same, for every input: signers are recovered only from signatures within range; hashes; copies; powers modulo a number of any lengths, also beyond the end of the input; sums, multiples and pairings of points; BLAKE2b. A failure takes all the gas of the call, nothing else does, and no input brings the program down.", "quantifier": "all inputs of any length and all amounts of gas", "why_tests_cant": "lengths in the input are 256-bit numbers that are cut to 64 bits and added with wrap-around after they were priced; only gas keeps the odd ones from running", "anchors": ["helios-chain/x/evm/core/vm/contracts.go: RunPrecompiledContract, ecrecover, sha256hash, ripemd160hash, dataCopy, bigModExp, runBn256Add, runBn256ScalarMul, runBn256Pairing, blake2F", "helios-chain/x/evm/core/vm/common.go: getData, allZero"]}
{"id": "C105", "title": "A bridge is changed only by those in charge of it", "statement": "The settings, tokens, withdrawals and records of a bridge change by an administrative message only if the authority or the initializer of that bridge signed it; such messages about one bridge leave all others as they are, take coins from nobody but the signer, and do what they say: new initializers, contracts, timeouts, pauses, tokens, counters and whitelists. A bridge that is cancelled or deleted gives back what was under way, and an initializer makes only coins that come from their own chain.", "quantifier": "all histories of administrative messages by any accounts, over any number of bridges; all states of the withdrawals", "why_tests_cant": "28 messages, each with its own copy of the check and its own way to find the bridge; some write records that are shared by all bridges", "anchors": ["helios-chain/x/hyperion/keeper/msg_server_testnet.go", "helios-chain/x/hyperion/keeper/msg_server_helios.go: UpdateCounterpartyChainInfosParams, AddCounterpartyChainParams", "helios-chain/x/hyperion/keeper/tokens.go: CreateOrLinkTokenToChain, MintToken, BurnToken, RemoveTokenFromChainMetadata", "helios-chain/x/hyperion/keeper/keeper.go: GetHyperionParamsFromChainId, SetCounterpartyChainParams, UpdateRpcUsed", "helios-chain/x/hyperion/keeper/batch.go: DeleteBatchs"]}
{"id": "C106", "title": "What scheduled calls did can be looked up", "statement": "Every execution and every cancellation of a scheduled call leaves a transaction with the next number. It is found by its number, by its hash and in its block, exactly as it was recorded, and by nothing else; the pages of a call show the transactions of that call, all of them, once, in order, and so do the pages of receipts and of all transactions. Calls that have ended are kept. The statistics count what they name.", "quantifier": "all histories of executions, cancellations and ends of calls, at any heights; all numbers, hashes, blocks, calls and pages asked for", "why_tests_cant": "one store holds everything under keys made of text, where numbers stand next to each other without a separator; two stores are in use, depending on the height", "anchors": ["helios-chain/x/chronos/keeper/archive_tx.go", "helios-chain/x/chronos/keeper/grpc_query_cron.go: QueryGetCronTransactionsByPageAndSize, QueryGetCronTransactionReceiptsByPageAndSize, QueryGetAllCronTransactionsByPageAndSize, QueryGetCronStatistics", "helios-chain/x/chronos/keeper/keeper.go: executeCron, emitCronCancelledEvent, RemoveCron", "helios-chain/x/chronos/types/keys.go"]}
{"id": "C107", "title": "Creating a token gives its creator exactly what they asked for, once", "statement": "The built-in contract that creates tokens accepts exactly the creations with a proper name, symbol, denomination, amount and number of decimals whose denomination is new. An accepted creation describes the coin, registers a contract for it that belongs to no other coin, and gives the whole amount to the creator; nobody else's coins change. The denomination can never be created again and the amount in existence stays what was asked for. The logo of a token is the picture its creator gave, and pictures up to the size allowed are accepted. A creation that is refused or taken back leaves nothing.", "quantifier": "all states, arguments, origins and callers of a creation; all histories of creations, uploads of pictures, changes of the size allowed and transfers", "why_tests_cant": "uniqueness, the registry and the amount concern whole histories; the creation writes to five modules in turn, and fails or is taken back between them", "anchors": ["helios-chain/precompiles/erc20creator/erc20creator.go: Run, validateArguments", "helios-chain/x/erc20/keeper/evm.go: DeployERC20Contract, MintERC20Tokens", "helios-chain/x/erc20/keeper/token_pairs.go: SetToken", "helios-chain/x/erc20/keeper/dynamic_precompiles.go: EnableDynamicPrecompiles", "helios-chain/x/logos/keeper/keeper.go: ValidateBase64Logo, StoreLogo, SetLogo, GetLogo", "helios-chain/x/logos/keeper/msg_server.go"]}
{"id": "C108", "title": "Who grants to a vesting account gets the unvested coins back", "statement": "An account becomes a vesting account by its own message, naming its funder; only the funder adds grants, and pays them. Whatever the account does with transfers, delegations and undelegations, and whatever it loses by staking, it keeps the coins that are not vested, so that the funder can take exactly those back at any time, unless governance is voting about the account. Only the funder, governance and the account itself change anything; governance takes back only from accounts that have not opted out, always to the community pool; the account becomes a plain one by itself exactly when all is vested and unlocked. While a proposal about the account is being voted on, and only then, the funder can neither take back nor name another funder.", "quantifier": "all histories of messages about vesting accounts, transfers, delegations, losses and proposals, by any number of accounts with any schedules and any coins", "why_tests_cant": "that the unvested coins are still there when they are taken back depends on everything the account and others did before", "anchors": ["helios-chain/x/vesting/keeper/msg_server.go: CreateClawbackVestingAccount, FundVestingAccount, Clawback, UpdateVestingFunder, ConvertVestingAccount, transferClawback", "helios-chain/x/vesting/keeper/hooks.go: AfterProposalDeposit, AfterProposalVotingPeriodEnded", "helios-chain/x/vesting/types/msg.go: ValidateBasic", "helios-chain/x/staking/keeper/msg_server.go: Delegate, validateDelegationAmountNotUnvested"]}
{"id": "C109", "title": "A proposal made from a contract costs what it says, and governance acts only as itself", "statement": "The built-in contract for governance accepts exactly the proposals with a title, a description, readable arguments, a sufficient deposit the origin can pay and a content that would work now. The origin pays the deposit it gave, whoever called; the proposal gets the next number and nothing it asks for happens before it passes. When it passes the deposit is returned and all of its messages are executed or none; otherwise nothing but the deposit is touched. Messages are executed as governance, whatever the proposer wrote into them, and take coins from nobody else. The deposits are always there to be returned.", "quantifier": "all states, origins, callers, deposits (256-bit), messages and routes; all histories of proposals and their ends", "why_tests_cant": "deposits go through three different conversions between 256-bit and 64-bit numbers; any message of any module can be executed, under any route", "anchors": ["helios-chain/precompiles/gov/tx.go: AddNewAssetProposal, UpdateAssetProposal, RemoveAssetProposal, UpdateBlockParamsProposal, HyperionProposal, ModularProposal, computeModuleRoute, InferRouteFromMsg", "helios-chain/precompiles/gov/types.go", "helios-chain/app/generic_proposal_handler.go: NewGenericProposalHandler, overrideAuthority", "helios-chain/app/app.go: govRouter", "helios-chain/x/hyperion/proposal_handler.go"]}
{"id": "C110", "title": "Validators are punished only for signatures the chain did not ask for, and once", "statement": "Anyone can submit a signature over a batch or validator set as evidence. Its signer loses the fraction of their stake that the bridge sets if and only if they are registered with that bridge, still have a stake, and the chain never asked to sign this. Who signs only what the chain asks for never loses anything; the same evidence costs its signer only once.", "quantifier": "all histories of items to sign, evidence, registrations, changes of stakes and parameters, and restarts from an export; any number of bridges; all items and signatures", "why_tests_cant": "whether a signature is bad depends on everything the chain ever asked to sign, for all bridges; attackers choose the item, the bridge and the time", "anchors": ["helios-chain/x/hyperion/keeper/evidence.go: CheckBadSignatureEvidence, checkBadSignatureEvidenceInternal, SetPastEthSignatureCheckpoint, GetPastEthSignatureCheckpoint", "helios-chain/x/hyperion/keeper/msg_server_helios.go: SubmitBadSignatureEvidence", "helios-chain/x/hyperion/types/batch.go: GetCheckpoint", "helios-chain/x/hyperion/types/types.go: GetCheckpoint", "helios-chain/x/hyperion/keeper/batch.go: BuildOutgoingTXBatch, BuildOutgoingTXBatchWithIds", "helios-chain/x/hyperion/keeper/keeper.go: SetValsetRequest", "helios-chain/x/hyperion/keeper/genesis.go: InitGenesis"]}
{"id": "C111", "title": "A block asked for by number, word or hash is the block answered", "statement": "A request that names a block by its number, in hexadecimal or decimal, by its hash, or by one of the words of the Ethereum interface is about exactly this block, in every request alike. A number beyond the chain or an unknown hash is an error, and what is none of these is refused.", "quantifier": "all texts and objects as names of blocks; all chains of blocks, pruned or not", "why_tests_cant": "names are arbitrary texts read by two readers, three number parsers and a look-up; tests cover a few well-formed names", "anchors": ["helios-chain/rpc/types/block.go: BlockNumber.UnmarshalJSON, BlockNumber.Int64, NewBlockNumber, BlockNumberOrHash.UnmarshalJSON, decodeFromString", "helios-chain/rpc/backend/blocks.go: TendermintBlockByNumber, BlockNumberFromTendermint, BlockNumberFromTendermintByHash", "helios-chain/rpc/backend/account_info.go: GetBalance"]}
{"id": "C112", "title": "Contracts get the hashes of the last 256 blocks", "statement": "A contract that asks for the hash of one of the last 256 blocks gets the hash of this block; for every other number it gets zero, and never the hash of another block.", "quantifier": "all histories of blocks and of the number of headers kept; all numbers asked for", "why_tests_cant": "the answer depends on what was kept over hundreds of blocks and on parameters changed in between; tests set up single headers by hand", "anchors": ["helios-chain/x/evm/keeper/state_transition.go: GetHashFn"]}
{"id": "C113", "title": "Hardware wallets get the host's commands and the host gets their answers", "statement": "A command the host sends to a hardware wallet reaches it unchanged, whatever its data, and so do the derivation path and the hashes to be signed. An answer of the device reaches the host unchanged. When the device refuses, the host reports an error; no answer makes it crash.", "quantifier": "all commands, parameters, data, paths and hashes; all answers in all packets that carry them", "why_tests_cant": "lengths decide how messages are cut into packets, and the device, which is not under the program's control, chooses the answers; tests with a device cover a few of either", "anchors": ["helios-chain/wallets/usbwallet/ledger.go: ledgerExchange, ledgerDerive, ledgerSignTypedMessage"]}
{"id": "C114", "title": "An export for a new chain from height zero succeeds and loses no coins", "statement": "Exporting the state for a new chain from height zero pays all commissions and rewards in whole coins, gives what is left to the community pool, lets every validator and delegation begin anew with nothing outstanding, resets all heights and jails exactly the validators not on the given list, if there is one. It succeeds on every state and list of addresses. An export without this option gives the state as it is.", "quantifier": "all states of validators, delegations, rewards and commissions; all lists of validators to be kept", "why_tests_cant": "whether the bookkeeping of rewards fits together again depends on the histories of all validators and delegations; the function is run on live state only", "anchors": ["helios-chain/app/export.go: ExportAppStateAndValidators, prepForZeroHeightGenesis"]}
{"id": "C115", "title": "Logs come back from their records, and valid records stand for one log each", "statement": "The logs of a transaction, kept as records with texts, are given back the same and in the same order; different logs have different records. Records pass validation exactly if they have hashes, a block and the transaction's hash, and two different records that pass stand for different logs.", "quantifier": "all logs, with all addresses, hashes, numbers of topics and data; all texts in records", "why_tests_cant": "texts of hashes and addresses can be anything, in any spelling; tests use a few well-formed ones", "anchors": ["helios-chain/x/evm/types/logs.go: NewLogFromEth, NewLogsFromEth, NewTransactionLogsFromEth, ToEthereum, LogsToEthereum, Log.Validate, TransactionLogs.Validate, EthLogs", "helios-chain/types/validation.go: IsEmptyHash, ValidateAddress"]}
{"id": "C116", "title": "A schedule of forks that is accepted is in order, and is set once", "statement": "A configuration of the virtual machine's forks is accepted exactly if no block is negative, the hash is not blank and of any two forks the earlier one is neither after the later one nor missing, unless it may be left out. Then at every height at which a fork's rules hold those of all earlier ones do, and they hold at all later heights. The configuration in use can be set once and does not change afterwards; without one, all forks are active from the first block on.", "quantifier": "all configurations, with any blocks or none for each of the 17 forks; all heights and sequences of settings", "why_tests_cant": "pairs of forks and blocks give too many combinations; tests change one block at a time", "anchors": ["helios-chain/x/evm/types/chain_config.go: EthereumConfig, DefaultChainConfig, setChainConfig, getBlockValue, Validate, validateHash, validateBlock"]}
{"id": "C117", "title": "Lists of proposals come page after page, as the filter asks", "statement": "Each page of proposals begins where the one before ends, whatever the filter. The parts of a filter add up: each restricts the list to proposals with its status, proposer, depositor, voter, title or description. A page shows the proposals that the governance module gives for this request, in order.", "quantifier": "all pages and sizes, all texts of filters, all answers of the governance module", "why_tests_cant": "filters are free text and proposals can be in any phase; tests use a few well-formed filters", "anchors": ["helios-chain/rpc/backend/proposals_info.go: GetProposalsByPageAndSize, GetProposalsByPageAndSizeWithFilter, ParseProposal"]}
