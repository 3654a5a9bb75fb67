import Verif.Hyperion.Pool
/-!
# The administration of bridges

Models `helios-chain/x/hyperion/keeper/msg_server_testnet.go` lines 19-1017 and `msg_server_helios.go` lines 285-403:
the messages by which the authority of the module and the initializer of a bridge change a bridge.

Conventions and simplifications.

* Withdrawals, batches, token links and coins are those of `Pool.lean`.  Token links are kept by the id of the bridge
  (`HyperionId`); the code keeps them by the id of the chain (`BridgeChainId`).  `AddCounterpartyChainParams` makes the two
  equal; `UpdateParams`, with which the authority replaces all settings at once, is not modelled.
* Texts are lists of bytes.  Reading a text as an address (`cmn.AnyToHexAddress`) is a parameter; accounts are its values.
* A message that returns an error or panics is rolled back: the outcome is `none`.
* Settings that only one message writes and no message reads are numbers, one for each `Field`.
  `UpdateDefaultToken` (616-650), which edits the list of tokens inside the settings, is left out.
* The search for the objects of one bridge by a prefix of their keys is C48; here it finds exactly them.
* `DefaultTokens` of a new bridge are left out of `AddCounterpartyChainParams`.
* Numbers do not wrap at 2^64; a height before the start height 0 is 0.
* Gas, events and logs are left out.
-/
namespace Admin
open Hyperion

abbrev Text := List Nat

/-- Settings of a bridge (`types.CounterpartyChainParams`) that are only numbers or texts here. -/
inductive Field where
  | contract | start | source | logo | name | offset | minGas | window | batchTimeout | txTimeout | blockTime
  | counterTime | rewardAmount
  deriving DecidableEq, Repr

/-- `types.Rpc`. -/
structure Rpc where
  url : Text
  reputation : Nat
  last : Nat
  deriving DecidableEq, Repr

/-- `types.CounterpartyChainParams`. -/
structure Chain where
  hid : Nat
  cid : Nat
  init : Text
  paused : Bool
  set : Field → Nat
  reward : Option Denom
  rpcs : List Rpc

/-- Writes one setting. -/
def Chain.put (c : Chain) (f : Field) (v : Nat) : Chain := { c with set := fun g => if g = f then v else c.set g }

/-- `types.Valset`, without the reward. -/
structure Valset where
  nonce : Nat
  members : List (Nat × Nat)
  height : Nat
  deriving DecidableEq, Repr

/-- What the module stores for a bridge beside its settings and the withdrawals: last observed event, heights and
validator set, the nonces of the stored validator sets, attestations and confirmations (as lists of names), the
orchestrators, the whitelist and the skipped events. -/
structure Store where
  event : Nat
  ethHeight : Nat
  ownHeight : Nat
  observed : Valset
  valsets : List Nat
  votes : List Nat
  orchs : List Nat
  white : Option (List Text)
  skipped : List Nat
  deriving DecidableEq, Repr

/-- `pairs`: denominations with an ERC20 contract, and that contract.  `assets`: the whitelist of denominations that
count for consensus.  `unbonding`: `LastUnbondingBlockHeight`, one for all bridges. -/
structure State where
  chains : List Chain
  store : Nat → Store
  pool : Hyperion.State
  pairs : List (Denom × Nat)
  assets : List Denom
  logos : Denom → Nat
  unbonding : Nat

/-- Fixed surroundings: the text of the authority, the reading of addresses, which texts are hexadecimal addresses
(`common.IsHexAddress`), the checksummed text of an address (`Address.Hex`), the power of validators, the height of the
block, and the limits of the pool. -/
structure Env where
  authority : Text
  addr : Text → Nat
  isHex : Text → Bool
  hex : Nat → Text
  power : Nat → Nat
  height : Nat
  cfg : Cfg

/-- keeper.go 1294-1304 `GetHyperionParamsFromChainId`. -/
def byCid (cs : List Chain) (cid : Nat) : Option Chain := cs.find? (fun c => decide (c.cid = cid))

/-- keeper.go 985-1000: the map by `HyperionId`; the last entry wins. -/
def byHid (cs : List Chain) (hid : Nat) : Option Chain := cs.reverse.find? (fun c => decide (c.hid = hid))

/-- keeper.go 1002-1012 `SetCounterpartyChainParams`: the first entry of the id is replaced. -/
def replace (hid : Nat) (n : Chain) : List Chain → List Chain
  | [] => []
  | c :: cs => if c.hid = hid then n :: cs else c :: replace hid n cs

/-- The check in nearly every message, for instance lines 35 and 61. -/
def allowed (e : Env) (signer : Text) (c : Chain) : Bool :=
  decide (e.authority = signer) || decide (e.addr c.init = e.addr signer)

/-- Lines 51-63 and their copies: the bridge of a message, when it exists and the signer may change it.  A message of
line 33, which does not look whether the bridge exists, panics without one. -/
def target (e : Env) (s : State) (signer : Text) (cid : Nat) : Option Chain :=
  if cid = 0 then none
  else match byCid s.chains cid with
    | none => none
    | some c => if allowed e signer c then some c else none

/-- Changes the first entry with a property. -/
def editFirst (p : Chain → Bool) (f : Chain → Chain) : List Chain → List Chain
  | [] => []
  | c :: cs => if p c = true then f c :: cs else c :: editFirst p f cs

/-- What the loops of 233-241, 257-265, 281-289 and 365-373 look for: the first entry of the chain id that the signer may
change.  Nothing is reported when there is none. -/
def mine (e : Env) (signer : Text) (cid : Nat) (c : Chain) : Bool := decide (c.cid = cid) && allowed e signer c

/-- Writes what is stored for one bridge. -/
def State.upd (s : State) (hid : Nat) (f : Store → Store) : State :=
  { s with store := fun h => if h = hid then f (s.store h) else s.store h }

/-- Stores the settings of a bridge. -/
def State.save (s : State) (hid : Nat) (c : Chain) : State := { s with chains := replace hid c s.chains }

/-- `SetID` of the counter of batches (pool.go 689-696). -/
def setBatchId (p : Hyperion.State) (hid n : Nat) : Hyperion.State :=
  { p with lastBatch := fun h => if h = hid then n else p.lastBatch h }

/-- keeper.go 1374-1405 `UpdateRpcUsed`.  The sort of Go is not stable; here it is. -/
def useRpc (rpcs : List Rpc) (url : Text) (height : Nat) : List Rpc :=
  let found := rpcs.any (fun r => decide (r.url = url))
  let l := rpcs.map (fun r => if r.url = url then { r with reputation := r.reputation + 1, last := height } else r)
  let l := (StableSort.sortBy (fun a b => decide (a.last ≤ b.last)) l).take 100
  if found then l else l ++ [{ url := url, reputation := 1, last := height }]

/-- batch.go 260-268 `DeleteBatchs`. -/
def deleteBatches (p : Hyperion.State) (hid : Nat) : Hyperion.State :=
  { p with batches := (batchesOf p hid).foldl (fun m b => KV.del m (b.hid, b.nonce, b.token)) p.batches }

/-- Lines 195-204, the withdrawals: batches are deleted, what waits is refunded, the counter of batches starts again.
Line 204 writes a counter that nothing counts with: `AddToOutgoingPool` counts in one for all bridges (pool.go 80). -/
def dropPool (cfg : Cfg) (p : Hyperion.State) (hid : Nat) : Option Hyperion.State :=
  let p1 := deleteBatches p hid
  match poolTxs p1 hid with
  | none => none
  | some txs => (cleanPool cfg hid txs p1).map (fun p2 => setBatchId p2 hid 0)

/-- Lines 679-731 `CancelAllPendingOutgoingTxs`. -/
def cancelAll (cfg : Cfg) (p : Hyperion.State) (hid : Nat) : Option Hyperion.State :=
  let p1 := cancelIf (fun _ => true) (batchesOf p hid) p
  match poolTxs p1 hid with
  | none => none
  | some txs => refundIf cfg hid (fun _ => true) txs p1

/-- Lines 733-768 `CancelPendingOutgoingTxs`; `int` of a count from 2^63 on is negative, and nothing is cancelled. -/
def cancelSome (cfg : Cfg) (p : Hyperion.State) (hid count : Nat) : Option Hyperion.State :=
  match poolTxs p hid with
  | none => none
  | some txs => cleanPool cfg hid (if count < 9223372036854775808 then txs.take count else []) p

/-- tokens.go 218-294 `CreateOrLinkTokenToChain` without default holders.  A denomination without an ERC20 contract gets
one, unless its metadata is not valid (`metaOk`); then nothing happens. -/
def linkToken (s : State) (hid addr : Nat) (d : Denom) (cosmos consensus metaOk : Bool) (erc20 : Nat) : State :=
  let known := s.pairs.any (fun p => decide (p.1 = d))
  if known = false ∧ metaOk = false then s
  else
    let p := if known then
        { s.pool with links := if (linkByDenom s.pool.links hid d).isSome then s.pool.links
            else s.pool.links ++ [{ hid := hid, addr := addr, denom := d, originated := !cosmos, locked := 0 }] }
      else createLink s.pool hid addr d (!cosmos)
    { s with
      pool := p
      pairs := if known then s.pairs else s.pairs ++ [(d, erc20)]
      assets := if consensus ∧ s.assets.contains d = false then s.assets ++ [d] else s.assets }

/-- tokens.go 102-118 `RemoveTokenFromChainMetadata`. -/
def unlink (p : Hyperion.State) (hid : Nat) (d : Denom) : Hyperion.State :=
  { p with links := p.links.eraseP (fun l => decide (l.hid = hid ∧ l.denom = d)) }

/-- tokens.go 157-174 `MintToken`; errors of the bank are ignored. -/
def mint (cfg : Cfg) (p : Hyperion.State) (hid addr n receiver : Nat) : Option Hyperion.State :=
  match linkByAddr p.links hid addr with
  | none => none
  | some l =>
    if isCosmos p.links l.denom then none
    else
      let b := p.bank.mint l.denom n
      some { p with bank := if cfg.blocked receiver then b
                            else (b.send .module (.user receiver) l.denom n).getD b }

/-- tokens.go 176-193 `BurnToken`; errors of the bank are ignored, so that the coins of the module are burnt where the
signer has not enough. -/
def burn (p : Hyperion.State) (hid addr n signer : Nat) : Option Hyperion.State :=
  match linkByAddr p.links hid addr with
  | none => none
  | some l =>
    if isCosmos p.links l.denom then none
    else
      let b := (p.bank.send (.user signer) .module l.denom n).getD p.bank
      some { p with bank := (b.burn l.denom n).getD b }

/-- The messages. -/
inductive Msg where
  | changeInit (cid : Nat) (new : Text)
  | newContract (cid contract start source : Nat) (first : Text)
  | put (cid : Nat) (f : Field) (v : Nat)
  | timeouts (cid batch tx : Nat)
  | reward (cid token amount : Nat)
  | delete (cid : Nat)
  | pause (cid : Nat) (on : Bool)
  | clearValset (cid : Nat)
  | force (hid : Nat) (v : Valset) (event ethHeight : Nat)
  | addRpc (cid : Nat) (url : Text)
  | removeRpc (cid : Nat) (url : Text)
  | setToken (cid addr : Nat) (d : Denom) (cosmos consensus metaOk : Bool) (erc20 : Nat)
  | removeToken (cid : Nat) (d : Denom)
  | mint (cid addr n receiver : Nat)
  | burn (cid addr n : Nat)
  | cancelAll (cid : Nat)
  | cancelSome (cid count : Nat)
  | tokenLogo (cid erc20 logo : Nat) (metaOk : Bool)
  | blockTime (cid v : Nat)
  | counterTime (cid v : Nat)
  | batchNonce (hid n : Nat)
  | white (hid : Nat) (l : List Text)
  | whiteAdd (hid : Nat) (a : Text)
  | whiteRemove (hid : Nat) (a : Text)
  | cleanSkipped (hid : Nat)
  | cleanAllSkipped
  | infos (cid logo name : Nat) (valid : Bool)
  | add (c : Chain) (valid : Bool)

/-- The fields with a message of their own that only writes them: `UpdateChainLogo` (119-143), `UpdateChainName`
(145-169), `SetValsetNonce` (500-524), `SetMinCallExternalDataGas` (526-550), `SetUnbondSlashingValsetsWindow`
(590-614). -/
def plain : Field → Bool
  | .logo | .name | .offset | .minGas | .window => true
  | _ => false

/-- Lines 19-1017 of msg_server_testnet.go and 285-403 of msg_server_helios.go.  `none`: the message failed. -/
def step (e : Env) (s : State) (signer : Text) : Msg → Option State
  | .changeInit cid new =>
    if new = [] then none
    else (target e s signer cid).map fun c => s.save cid { c with init := new }
  | .newContract cid contract start source first =>
    (target e s signer cid).map fun c =>
      let c' := ((((c.put .contract contract).put .start start).put .source source).put .offset 0).put .blockTime 100
      let s1 := (s.save cid c').upd c.hid fun t =>
        { t with
          ethHeight := start - 1
          ownHeight := e.height
          orchs := t.orchs.filter (fun o => decide (o = e.addr first))
          observed := { nonce := 1, members := [(4294967295, e.addr first)], height := start - 1 }
          event := 1 }
      { s1 with pool := setBatchId s1.pool c.hid 0 }
  | .put cid f v =>
    if plain f then (target e s signer cid).map fun c => s.save cid (c.put f v) else none
  | .timeouts cid batch tx =>
    (target e s signer cid).map fun c => s.save cid ((c.put .batchTimeout batch).put .txTimeout tx)
  | .reward cid token amount =>
    (target e s signer cid).bind fun c =>
      match s.pairs.find? (fun p => decide (p.2 = token)) with
      | none => none
      | some p =>
        if (linkByDenom s.pool.links c.hid p.1).isSome then
          some (s.save cid { c.put .rewardAmount amount with reward := some p.1 })
        else none
  | .delete cid =>
    (target e s signer cid).bind fun c =>
      (dropPool e.cfg s.pool c.hid).map fun p =>
        let s1 := { s with pool := p }.upd c.hid fun t =>
          { t with valsets := [], votes := [], event := 0, ethHeight := 0, ownHeight := 0,
                   observed := { nonce := 0, members := [], height := 0 } }
        { s1 with chains := s1.chains.eraseP (fun x => decide (x.cid = cid)) }
  | .pause cid on =>
    if cid = 0 then none
    else some { s with chains := editFirst (mine e signer cid) (fun c => { c with paused := on }) s.chains }
  | .clearValset cid =>
    if cid = 0 then none
    else some (match s.chains.find? (mine e signer cid) with
      | none => s
      | some c => s.upd c.hid fun t => { t with event := 0 })
  | .force hid v event ethHeight =>
    match byHid s.chains hid with
    | none => none
    | some c =>
      if allowed e signer c then
        let s1 := s.upd hid fun t =>
          { t with
            observed := if t.valsets.contains v.nonce then t.observed else v
            event := event
            ethHeight := ethHeight
            ownHeight := e.height }
        some { s1.save hid (c.put .offset v.nonce) with
               pool := setBatchId s1.pool hid event
               unbonding := e.height }
      else none
  | .addRpc cid url =>
    (target e s signer cid).bind fun c =>
      if (s.store c.hid).ethHeight = 0 then none
      else (byHid s.chains c.hid).map fun x =>
        s.save c.hid { x with rpcs := useRpc x.rpcs url (s.store c.hid).ethHeight }
  | .removeRpc cid url =>
    if cid = 0 then none
    else
      some { s with
             chains := editFirst (mine e signer cid)
               (fun c => { c with rpcs := c.rpcs.eraseP (fun r => decide (r.url = url)) }) s.chains }
  | .setToken cid addr d cosmos consensus metaOk erc20 =>
    (target e s signer cid).map fun c => linkToken s c.hid addr d cosmos consensus metaOk erc20
  | .removeToken cid d => (target e s signer cid).map fun c => { s with pool := unlink s.pool c.hid d }
  | .mint cid addr n receiver =>
    (target e s signer cid).bind fun c => (mint e.cfg s.pool c.hid addr n receiver).map fun p => { s with pool := p }
  | .burn cid addr n =>
    (target e s signer cid).bind fun c => (burn s.pool c.hid addr n (e.addr signer)).map fun p => { s with pool := p }
  | .cancelAll cid =>
    (target e s signer cid).bind fun c => (cancelAll e.cfg s.pool c.hid).map fun p => { s with pool := p }
  | .cancelSome cid count =>
    (target e s signer cid).bind fun c => (cancelSome e.cfg s.pool c.hid count).map fun p => { s with pool := p }
  | .tokenLogo cid erc20 logo metaOk =>
    (target e s signer cid).bind fun _ =>
      match s.pairs.find? (fun p => decide (p.2 = erc20)) with
      | none => none
      | some p => if metaOk then some { s with logos := fun d => if d = p.1 then logo else s.logos d } else none
  | .blockTime cid v =>
    (target e s signer cid).bind fun c =>
      (cancelAll e.cfg s.pool c.hid).map fun p => { s.save cid (c.put .blockTime v) with pool := p }
  | .counterTime cid v =>
    (target e s signer cid).bind fun c =>
      (cancelAll e.cfg s.pool c.hid).map fun p => { s.save cid (c.put .counterTime v) with pool := p }
  | .batchNonce hid n =>
    match byCid s.chains hid with
    | none => none
    | some c =>
      if allowed e signer c = true ∧ s.pool.lastBatch hid ≤ n then some { s with pool := setBatchId s.pool hid n }
      else none
  | .white hid l =>
    match byCid s.chains hid with
    | none => none
    | some c =>
      if allowed e signer c = true ∧ l.all e.isHex = true then some (s.upd hid fun t => { t with white := some l })
      else none
  | .whiteAdd hid a =>
    match byCid s.chains hid with
    | none => none
    | some c =>
      if allowed e signer c = true ∧ e.isHex a = true then
        some (s.upd hid fun t => { t with white := some (t.white.getD [] ++ [e.hex (e.addr a)]) })
      else none
  | .whiteRemove hid a =>
    match byCid s.chains hid with
    | none => none
    | some c =>
      if allowed e signer c = true ∧ e.isHex a = true then
        some (s.upd hid fun t =>
          { t with white := some ((t.white.getD []).filter (fun x => decide (x ≠ e.hex (e.addr a)))) })
      else none
  | .cleanSkipped hid =>
    if e.authority = signer then some (s.upd hid fun t => { t with skipped := [] }) else none
  | .cleanAllSkipped =>
    if e.authority = signer then some { s with store := fun h => { s.store h with skipped := [] } } else none
  | .infos cid logo name valid =>
    match byCid s.chains cid with
    | none => none
    | some c =>
      if e.addr c.init = e.addr signer ∧ valid = true then
        some { s with
               chains := editFirst (fun x => decide (x.cid = cid)) (fun x => (x.put .logo logo).put .name name) s.chains }
      else none
  | .add c valid =>
    if e.addr signer = e.addr e.authority ∧ 0 < e.power (e.addr c.init) ∧ valid = true ∧ c.hid ≠ 0 ∧ c.hid = c.cid
        ∧ s.chains.all (fun x => decide (x.hid ≠ c.hid ∧ x.cid ≠ c.cid)) = true then
      some ({ s with chains := s.chains ++ [c.put .blockTime 0] }.upd c.hid fun t =>
        { t with
          ethHeight := c.set .start
          ownHeight := e.height
          observed := { nonce := 1, members := [(4294967295, e.addr c.init)], height := c.set .start - 1 }
          event := 1 })
    else none

/-- A failed message changes nothing. -/
def next (e : Env) (s : State) (signer : Text) (m : Msg) : State := (step e s signer m).getD s

/-- A history of messages, each in its own surroundings (only the height and the powers differ). -/
def run (s : State) : List (Env × Text × Msg) → State
  | [] => s
  | (e, w, m) :: l => run (next e s w m) l

end Admin
