import Verif.MemIAVL.Export
/-! # memiavl: what a well-formed export stream is (specification for C07) -/
namespace MemIAVL

/-- Streams of one well-shaped tree: a leaf item, or two such streams followed by the item of their parent. -/
inductive PostOrder : List ExportNode → Prop
  | leaf (e : ExportNode) : e.height = 0 → PostOrder [e]
  | branch (l r : List ExportNode) (e : ExportNode) : e.height ≠ 0 → PostOrder l → PostOrder r →
      PostOrder (l ++ r ++ [e])

end MemIAVL
