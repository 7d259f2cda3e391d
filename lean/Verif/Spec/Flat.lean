import Verif.Spec.Meaning

/-! Templates of text, comments and raw blocks, and the text they are to render. -/

namespace Askama.Spec

/-- Text, comments and raw blocks. -/
def plain : Node → Bool
  | .lit _ | .comment _ _ | .raw _ _ _ => true
  | _ => false

/-- The handling of whitespace asked for at one side of a tag: the marker there, or else the configured one. -/
def asks (d : WH) : Option Wsp → WH
  | some .suppress => .suppress
  | some .preserve => .preserve
  | some .minimize => .minimize
  | none => d

/-- The text of nodes without expressions. `d` is the configured handling of whitespace, `before` what the tag before the
nodes asks for. Comments have no text; a literal is its text between the two tags around it, and so is the inside of a
raw block. -/
def plainText (d before : WH) : List Node → Str
  | [] => []
  | .lit l :: ns => litText before l (ns.head?.map fun n => asks d (leftMark n)) ++ plainText d before ns
  | .comment ws _ :: ns => plainText d (asks d ws.r) ns
  | .raw ws1 l ws2 :: ns => litText (asks d ws1.r) l (some (asks d ws2.l)) ++ plainText d (asks d ws2.r) ns
  | _ :: ns => plainText d before ns

end Askama.Spec
