import Verif.Erc20.Create
import Verif.EVM.Precompile
/-!
# The creation of a token inside a transaction of the EVM

Of all the built-in contracts only the creator of tokens does not register its changes in the journal of the transaction: its `Run`
(/repo/helios-chain/precompiles/erc20creator/erc20creator.go 99-250) never calls `AddJournalEntries`.
-/
namespace Create

/-- The creator as a contract in the model of C80. It changes no balance of the chain's own coin; everything it writes is in other modules. -/
def creator (e : Env) (r : Req) : PC.Call State :=
  { addr := 2054
    handler := fun _ x => { delta := [], rest := (create e x r).1, report := [], ok := (create e x r).2.isSome } }

/-- `RunSetup` (precompiles/common/precompile.go 71-158) and the creator's `Run`: as `PC.SDB.call`, without the registration at the end. -/
def runUnregistered {X : Type} (s : PC.SDB X) (c : PC.Call X) : PC.SDB X × Bool :=
  let snap := s.cache.getD id
  let s := { s with cache := some snap }
  if s.writable = false then (s, false)
  else
    let L : PC.Layer X := fun K => s.write (snap K)
    if c.valid = false then ({ s with cache := some L }, false)
    else
      let F := L s.ctx
      let r := c.handler F.bal F.rest
      ({ s with cache := some (fun K => PC.SDB.effect F r (L K)) }, r.ok)

end Create
