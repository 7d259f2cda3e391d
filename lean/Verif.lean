import Verif.Props.Escape
import Verif.Props.Filters
import Verif.Props.Runtime
import Verif.Props.Parse
import Verif.Props.ParseTags
import Verif.Props.Prec
import Verif.Props.Names
import Verif.Props.Config
import Verif.Props.Counter
import Verif.Props.Format
import Verif.Props.Collect
import Verif.Spec.Core
import Verif.Lemmas.Core
import Verif.Props.Render
import Verif.Props.Errors
import Verif.Props.Escaping
import Verif.Lemmas.Fuel
import Verif.Lemmas.Meaning
import Verif.Lemmas.Tame
import Verif.Lemmas.Code
import Verif.Spec.Meaning
import Verif.Spec.Code
import Verif.Props.Language
import Verif.Spec.Flat
import Verif.Lemmas.Flat
import Verif.Props.Text
import Verif.Props.Comments
import Verif.Props.Derive
import Verif.Props.Tracked
import Verif.Lemmas.Params
import Verif.Props.Scopes
import Verif.Spec.Layout
import Verif.Lemmas.Layout
import Verif.Props.Layout
import Verif.Spec.Refs
import Verif.Lemmas.NoPanic
import Verif.Props.NoPanic
import Verif.Spec.Fragment
import Verif.Lemmas.Fragment
import Verif.Lemmas.Excerpt
import Verif.Props.Fragment
import Verif.Lemmas.Depth
import Verif.Spec.RustRead
import Verif.Lemmas.RustRead
import Verif.Model.Text
import Verif.Spec.Spells
import Verif.Lemmas.RustLex
import Verif.Lemmas.TextParts
import Verif.Lemmas.Text
import Verif.Lemmas.TextRead
import Verif.Lemmas.LexShape
import Verif.Lemmas.ParseShape
import Verif.Spec.NodeExprs
import Verif.Spec.Comments
import Verif.Lemmas.Comments
import Verif.Lemmas.NodeShape
import Verif.Props.ExprText
import Verif.Props.StmtText
import Verif.Spec.Doc
import Verif.Lemmas.DocPat
import Verif.Lemmas.DocArgs
import Verif.Lemmas.DocTags
import Verif.Lemmas.DocText
import Verif.Lemmas.DocBlocks
import Verif.Lemmas.DocRead
import Verif.Props.Doc
import Verif.Props.Delims
import Verif.Spec.Accept
import Verif.Lemmas.Accept
import Verif.Lemmas.Alone
import Verif.Lemmas.Needed
import Verif.Props.Accept
import Verif.Props.Tree
import Verif.Props.Missing
import Verif.Props.Stray
import Verif.Props.BadExpr
import Verif.Spec.Grammar
import Verif.Lemmas.Grammar
import Verif.Lemmas.GrammarExpr
import Verif.Spec.GrammarNode
import Verif.Lemmas.GrammarPat
import Verif.Lemmas.GrammarNode
import Verif.Props.Grammar
import Verif.Spec.Canon
import Verif.Spec.CanonNode
import Verif.Lemmas.Canon
import Verif.Lemmas.CanonDef
import Verif.Lemmas.CanonPat
import Verif.Lemmas.CanonNode
import Verif.Lemmas.CanonOk
import Verif.Props.Canon
import Verif.Spec.Fields
import Verif.Lemmas.FieldsEval
import Verif.Lemmas.FieldsGen
import Verif.Props.Fields
import Verif.Spec.Space
import Verif.Lemmas.SpaceGen
import Verif.Lemmas.SpaceNodes
import Verif.Lemmas.SpaceCtx
import Verif.Lemmas.SpaceRun
import Verif.Props.Space
import Verif.Spec.Outside
import Verif.Lemmas.Outside
import Verif.Props.Outside
import Verif.Spec.Unused
import Verif.Lemmas.Unused
import Verif.Props.Unused
import Verif.Lemmas.Setting
import Verif.Props.Setting
import Verif.Lemmas.Escapers
import Verif.Props.Escapers
