import Verif.Ante.Routes

/-!
# What the limiter is for

`Within d m msgs`: the message `m` is carried by the list `msgs`, wrapped in `d` messages of type
`MsgExec`. `Ladder r msgs inner`: the list `inner` is reached from `msgs` by going into `MsgExec`
messages, where going into the `k`-th one of a list counts `k`.
-/

namespace Routes

/-- `m` sits in `msgs` inside `d` nested `MsgExec` messages. -/
inductive Within : Nat → Msg → List Msg → Prop
  | listed {m msgs} : m ∈ msgs → Within 0 m msgs
  | wrapped {d m inner msgs} : Msg.exec inner ∈ msgs → Within d m inner → Within (d + 1) m msgs

/-- Is this message a `MsgExec`? -/
def isExec : Msg → Bool
  | .exec _ => true
  | _ => false

/-- `inner` is reached from `msgs`, at cost `r`. -/
inductive Ladder : Nat → List Msg → List Msg → Prop
  | stay {msgs} : Ladder 0 msgs msgs
  | into {r before inner after target} :
      Ladder r inner target →
      Ladder (before.countP isExec + 1 + r) (before ++ .exec inner :: after) target

/-- What must not be in a transaction: a grant for a disabled type anywhere, or a message of a
disabled type inside a `MsgExec`. -/
def Forbidden (msgs : List Msg) : Prop :=
  (∃ d url, Within d (.grant url) msgs ∧ url ∈ disabled) ∨
  (∃ d url carried, Within (d + 1) (.other url carried) msgs ∧ url ∈ disabled) ∨
  (∃ d m, Within (d + 1) (.eth m) msgs)

end Routes
