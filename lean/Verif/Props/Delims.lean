import Verif.Props.Doc
import Verif.Props.Config
import Verif.Props.Comments

/-!
# Custom delimiters

A template may be written with any delimiters: if they can be used, they make no difference to what is read. Which ones can
be used is not what the configuration is checked for, and some accepted ones cannot be.
-/

namespace Askama.Spec

mutual
/-- There are no comments in a piece. -/
def noComment : Doc → Prop
  | .comment _ _ => False
  | .if_ _ _ body more _ => noComments body ∧ noCommentBs more
  | .for_ _ _ _ _ body els _ => noComments body ∧ noCommentE els
  | .match_ _ _ _ arms els _ => noCommentAs arms ∧ noCommentE els
  | .block _ _ body _ _ => noComments body
  | .macro _ _ _ body _ _ => noComments body
  | .filter _ _ _ body _ => noComments body
  | .text _ => True
  | .expr _ _ => True
  | .call _ _ _ _ _ => True
  | .callBare _ _ _ => True
  | .let_ _ _ _ _ => True
  | .extends_ _ _ => True
  | .include_ _ _ => True
  | .import_ _ _ _ => True
  | .raw _ _ _ => True
  | .break_ _ => True
  | .continue_ _ => True
/-- There are no comments in a template. -/
def noComments : List Doc → Prop
  | [] => True
  | d :: ds => noComment d ∧ noComments ds
/-- There are no comments in a branch. -/
def noCommentB : DocBranch → Prop
  | .elseIf _ _ _ body => noComments body
  | .else_ _ body => noComments body
/-- There are no comments in the branches. -/
def noCommentBs : List DocBranch → Prop
  | [] => True
  | b :: bs => noCommentB b ∧ noCommentBs bs
/-- There are no comments in an arm. -/
def noCommentA : DocArm → Prop
  | .mk _ _ body => noComments body
/-- There are no comments in the arms. -/
def noCommentAs : List DocArm → Prop
  | [] => True
  | a :: as => noCommentA a ∧ noCommentAs as
/-- There are no comments in an `else`. -/
def noCommentE : Else → Prop
  | .none => True
  | .some _ body => noComments body
end

end Askama.Spec

namespace Askama.Props

open Askama.Spec

theorem silenceWhens_append (a b : List When) : silenceWhens (a ++ b) = silenceWhens a ++ silenceWhens b := by
  induction a with
  | nil => rfl
  | cons x a ih =>
    obtain ⟨w, p, body⟩ := x
    simp only [List.cons_append, silenceWhens, ih]

section

variable (syn syn' : Syntax)

mutual
theorem quiet_doc : (d : Doc) → silence (d.node syn) = silence (d.node syn')
  | .if_ _ _ body more _ => by simp only [Doc.node, silence, silenceConds, quiet_docs body, quiet_branches more]
  | .for_ _ _ _ _ body .none _ => by simp only [Doc.node, silence, quiet_docs body]
  | .for_ _ _ _ _ body (.some _ els) _ => by simp only [Doc.node, silence, quiet_docs body, quiet_docs els]
  | .match_ _ _ _ arms .none _ => by simp only [Doc.node, silence, quiet_arms arms]
  | .match_ _ _ _ arms (.some _ els) _ => by
    simp only [Doc.node, silence, silenceWhens_append, silenceWhens, quiet_arms arms, quiet_docs els]
  | .block _ _ body _ _ => by simp only [Doc.node, silence, quiet_docs body]
  | .macro _ _ _ body _ _ => by simp only [Doc.node, silence, quiet_docs body]
  | .filter _ _ _ body _ => by simp only [Doc.node, silence, quiet_docs body]
  | .comment _ _ => by simp only [Doc.node, silence]
  | .text _ => by simp only [Doc.node]
  | .expr _ _ => by simp only [Doc.node]
  | .call _ _ _ _ _ => by simp only [Doc.node]
  | .callBare _ _ _ => by simp only [Doc.node]
  | .let_ _ _ _ _ => by simp only [Doc.node]
  | .extends_ _ _ => by simp only [Doc.node]
  | .include_ _ _ => by simp only [Doc.node]
  | .import_ _ _ _ => by simp only [Doc.node]
  | .raw _ _ _ => by simp only [Doc.node]
  | .break_ _ => by simp only [Doc.node]
  | .continue_ _ => by simp only [Doc.node]
theorem quiet_docs : (ds : List Doc) → silenceAll (Doc.nodes syn ds) = silenceAll (Doc.nodes syn' ds)
  | [] => by simp only [Doc.nodes]
  | d :: ds => by simp only [Doc.nodes, silenceAll, quiet_doc d, quiet_docs ds]
theorem quiet_branches : (bs : List DocBranch) → silenceConds (DocBranch.nodes syn bs) = silenceConds (DocBranch.nodes syn' bs)
  | [] => by simp only [DocBranch.nodes]
  | .elseIf _ _ _ body :: bs => by
    simp only [DocBranch.nodes, DocBranch.node, silenceConds, quiet_docs body, quiet_branches bs]
  | .else_ _ body :: bs => by
    simp only [DocBranch.nodes, DocBranch.node, silenceConds, quiet_docs body, quiet_branches bs]
theorem quiet_arms : (as : List DocArm) → silenceWhens (DocArm.nodes syn as) = silenceWhens (DocArm.nodes syn' as)
  | [] => by simp only [DocArm.nodes]
  | .mk _ _ body :: as => by simp only [DocArm.nodes, DocArm.node, silenceWhens, quiet_docs body, quiet_arms as]
end

mutual
theorem same_doc : (d : Doc) → noComment d → d.node syn = d.node syn'
  | .if_ _ _ body more _, h => by
    simp only [noComment] at h
    simp only [Doc.node, same_docs body h.1, same_branches more h.2]
  | .for_ _ _ _ _ body .none _, h => by
    simp only [noComment] at h
    simp only [Doc.node, same_docs body h.1]
  | .for_ _ _ _ _ body (.some _ els) _, h => by
    simp only [noComment, noCommentE] at h
    simp only [Doc.node, same_docs body h.1, same_docs els h.2]
  | .match_ _ _ _ arms .none _, h => by
    simp only [noComment] at h
    simp only [Doc.node, same_arms arms h.1]
  | .match_ _ _ _ arms (.some _ els) _, h => by
    simp only [noComment, noCommentE] at h
    simp only [Doc.node, same_arms arms h.1, same_docs els h.2]
  | .block _ _ body _ _, h => by
    simp only [noComment] at h
    simp only [Doc.node, same_docs body h]
  | .macro _ _ _ body _ _, h => by
    simp only [noComment] at h
    simp only [Doc.node, same_docs body h]
  | .filter _ _ _ body _, h => by
    simp only [noComment] at h
    simp only [Doc.node, same_docs body h]
  | .comment _ _, h => by simp only [noComment] at h
  | .text _, _ => by simp only [Doc.node]
  | .expr _ _, _ => by simp only [Doc.node]
  | .call _ _ _ _ _, _ => by simp only [Doc.node]
  | .callBare _ _ _, _ => by simp only [Doc.node]
  | .let_ _ _ _ _, _ => by simp only [Doc.node]
  | .extends_ _ _, _ => by simp only [Doc.node]
  | .include_ _ _, _ => by simp only [Doc.node]
  | .import_ _ _ _, _ => by simp only [Doc.node]
  | .raw _ _ _, _ => by simp only [Doc.node]
  | .break_ _, _ => by simp only [Doc.node]
  | .continue_ _, _ => by simp only [Doc.node]
theorem same_docs : (ds : List Doc) → noComments ds → Doc.nodes syn ds = Doc.nodes syn' ds
  | [], _ => by simp only [Doc.nodes]
  | d :: ds, h => by
    simp only [noComments] at h
    simp only [Doc.nodes, same_doc d h.1, same_docs ds h.2]
theorem same_branch : (b : DocBranch) → noCommentB b → b.node syn = b.node syn'
  | .elseIf _ _ _ body, h => by
    simp only [noCommentB] at h
    simp only [DocBranch.node, same_docs body h]
  | .else_ _ body, h => by
    simp only [noCommentB] at h
    simp only [DocBranch.node, same_docs body h]
theorem same_branches : (bs : List DocBranch) → noCommentBs bs → DocBranch.nodes syn bs = DocBranch.nodes syn' bs
  | [], _ => by simp only [DocBranch.nodes]
  | b :: bs, h => by
    simp only [noCommentBs] at h
    simp only [DocBranch.nodes, same_branch b h.1, same_branches bs h.2]
theorem same_arm : (a : DocArm) → noCommentA a → a.node syn = a.node syn'
  | .mk _ _ body, h => by
    simp only [noCommentA] at h
    simp only [DocArm.node, same_docs body h]
theorem same_arms : (as : List DocArm) → noCommentAs as → DocArm.nodes syn as = DocArm.nodes syn' as
  | [], _ => by simp only [DocArm.nodes]
  | a :: as, h => by
    simp only [noCommentAs] at h
    simp only [DocArm.nodes, same_arm a h.1, same_arms as h.2]
end

end

/-- C70. An accepted syntax can be used if what closes blocks and expressions cannot be taken for a part of them: `isWs` is
white space as the configuration counts it, which has to include what the parser skips. -/
theorem C70_usable {isWs : Char → Bool} (hws : ∀ c, isBlank c → isWs c = true) {r : RawSyntax} {s : Syntax}
    (h : r.toSyntax isWs = .ok s) (hb : Closing s.blockEnd) (he : Closing s.exprEnd) : Usable s := by
  obtain ⟨h1, h2⟩ := C55_unambiguous_partial h
  have hne : ∀ d ∈ [s.blockStart, s.blockEnd, s.exprStart, s.exprEnd, s.commentStart, s.commentEnd], d ≠ [] := by
    rintro d hd rfl
    have := (h1 [] hd).1
    simp [Str.blen] at this
  have hnb : ∀ d ∈ [s.blockStart, s.blockEnd, s.exprStart, s.exprEnd, s.commentStart, s.commentEnd], ∀ c ∈ d, ¬ isBlank c := by
    intro d hd c hc hbl
    have := (h1 d hd).2.1 c hc
    rw [hws c hbl] at this
    cases this
  refine ⟨hb, he, hne _ (by simp), fun d hd => ?_, fun p hp => ?_⟩
  · have : d ∈ [s.blockStart, s.blockEnd, s.exprStart, s.exprEnd, s.commentStart, s.commentEnd] := by
      simp at hd ⊢
      rcases hd with rfl | rfl | rfl <;> simp
    exact ⟨hne d this, hnb d this⟩
  · have h2a := h2 p.1
    have h2b := h2 p.2
    simp at hp
    rcases hp with rfl | rfl | rfl
    · exact ⟨fun h => h2b.1 ⟨h, List.prefix_refl _⟩, fun h => h2a.1 ⟨List.prefix_refl _, h⟩⟩
    · exact ⟨fun h => h2b.2.1 ⟨h, List.prefix_refl _⟩, fun h => h2a.2.1 ⟨List.prefix_refl _, h⟩⟩
    · exact ⟨fun h => h2b.2.2 ⟨h, List.prefix_refl _⟩, fun h => h2a.2.2 ⟨List.prefix_refl _, h⟩⟩

/-- C70. Delimiters make no difference: a template written with one or the other is read as the same nodes, but for the text of
comments, which is kept with what closes them. -/
theorem C70_same_reading (syn syn' : Syntax) (hs : Usable syn) (hs' : Usable syn') (isLower : Char → Bool) (ds : List Doc)
    (h : Doc.Oks syn isLower false ds) (h' : Doc.Oks syn' isLower false ds) (hd : Doc.needs ds ≤ 128) :
    ∃ ns ns', parseTemplate ⟨syn, isLower⟩ (Doc.texts syn ds) = .ok ns ∧
      parseTemplate ⟨syn', isLower⟩ (Doc.texts syn' ds) = .ok ns' ∧ silenceAll ns = silenceAll ns' :=
  ⟨_, _, C66_tags_read syn hs isLower ds h hd, C66_tags_read syn' hs' isLower ds h' hd, quiet_docs syn syn' ds⟩

/-- C70. Without comments the nodes are the same. -/
theorem C70_same_nodes (syn syn' : Syntax) (hs : Usable syn) (hs' : Usable syn') (isLower : Char → Bool) (ds : List Doc)
    (h : Doc.Oks syn isLower false ds) (h' : Doc.Oks syn' isLower false ds) (hd : Doc.needs ds ≤ 128) (hn : noComments ds) :
    parseTemplate ⟨syn, isLower⟩ (Doc.texts syn ds) = parseTemplate ⟨syn', isLower⟩ (Doc.texts syn' ds) := by
  rw [C66_tags_read syn hs isLower ds h hd, C66_tags_read syn' hs' isLower ds h' hd, same_docs syn syn' ds hn]

/-- A template that is given in two ways, with two sorts of delimiters; or not at all. -/
inductive Rewritten (isLower : Char → Bool) (syn syn' : Syntax) : Option Str → Option Str → Prop
  | missing : Rewritten isLower syn syn' none none
  | both (ds : List Doc) : Doc.Oks syn isLower false ds → Doc.Oks syn' isLower false ds → Doc.needs ds ≤ 128 →
      Rewritten isLower syn syn' (some (Doc.texts syn ds)) (some (Doc.texts syn' ds))

theorem Rewritten.same {isLower : Char → Bool} {syn syn' : Syntax} (hs : Usable syn) (hs' : Usable syn') {a b : Option Str}
    (h : Rewritten isLower syn syn' a b) : SameFile isLower syn syn' a b := by
  cases h with
  | missing => trivial
  | both ds h h' hd =>
    show Option.map _ _ = Option.map _ _
    unfold parseNodes
    rw [C66_tags_read syn hs isLower ds h hd, C66_tags_read syn' hs' isLower ds h' hd]
    exact congrArg some (quiet_docs syn syn' ds)

/-- C70. If a project is changed to other delimiters, its configuration, the template and all other templates, then the same
code is generated, or the same kind of error reported. -/
theorem C70_delimiters (c c' : Config) (syn syn' : Syntax) (hs : Usable syn) (hs' : Usable syn') (env env' : DeriveEnv)
    (ident : Str) (source source' : Str) (block escaping ext name name' : Option Str) (fuel : Nat)
    (hc : c'.dirs = c.dirs ∧ c'.escapers = c.escapers ∧ c'.whitespace = c.whitespace)
    (he : env' = { env with files := ⟨env.files.exist, env'.files.read⟩ })
    (hk : templateSyntax c name = .ok syn) (hk' : templateSyntax c' name' = .ok syn')
    (hsrc : Rewritten env.isLower syn syn' (some source) (some source'))
    (hf : ∀ p, Rewritten env.isLower syn syn' (getTemplateSource env.files p) (getTemplateSource env'.files p)) :
    buildTemplate env' c' ident ⟨some (.source source'), block, escaping, ext, name'⟩ fuel =
      buildTemplate env c ident ⟨some (.source source), block, escaping, ext, name⟩ fuel :=
  C70_same_code c c' syn syn' env env' ident _ _ fuel
    { dirs := hc.1, escapers := hc.2.1, whitespace := hc.2.2, exist := by rw [he], isLower := by rw [he], guess := by rw [he],
      json := by rw [he], block := rfl, escaping := rfl, ext := rfl, known := hk, known' := hk', source := hsrc.same hs hs',
      files := fun p => (hf p).same hs hs' }

/-- The template with most of the tags, with two sorts of delimiters. -/
example : parseTemplate ⟨Syntax.default, Char.isLower⟩ (Doc.texts Syntax.default doc1) =
    parseTemplate ⟨erb, Char.isLower⟩ (Doc.texts erb doc1) :=
  C70_same_nodes _ _ usable_default usable_erb _ _ (doc1_ok _ (.inl rfl)).1 (doc1_ok _ (.inr rfl)).1 (doc1_ok _ (.inl rfl)).2
    (by simp [doc1, noComments, noComment, noCommentBs, noCommentB, noCommentAs, noCommentA, noCommentE])

/-- The hypotheses of `C70_delimiters` for this template, as an inline source. -/
example (fuel : Nat) : buildTemplate (toyEnv []) { toyConfig .preserve with syntaxes := [(c!"erb", erb)] } c!"T"
      ⟨some (.source (Doc.texts erb doc1)), none, none, some c!"txt", some c!"erb"⟩ fuel =
    buildTemplate (toyEnv []) (toyConfig .preserve) c!"T"
      ⟨some (.source (Doc.texts Syntax.default doc1)), none, none, some c!"txt", none⟩ fuel :=
  C70_delimiters _ _ _ _ usable_default usable_erb _ _ _ _ _ _ _ _ _ _ _ ⟨rfl, rfl, rfl⟩ rfl rfl rfl
    (.both doc1 (doc1_ok _ (.inl rfl)).1 (doc1_ok _ (.inr rfl)).1 (doc1_ok _ (.inl rfl)).2) fun _ => .missing

/-- A configuration that leads to usable delimiters. -/
example : ∃ s, (RawSyntax.mk c!"erb" (some c!"<%") (some c!"%>") (some c!"<@") (some c!"@>") (some c!"<!--") (some c!"-->")).toSyntax isWsp =
    .ok s ∧ Closing s.blockEnd ∧ Closing s.exprEnd := ⟨_, rfl, by decide, by decide⟩

/-- C70, as one would like to have it, is false: with `<!--` and `-->`, which are accepted as a syntax, the tag
`<!-- if x -->` is refused, since the first `-` of what closes the tag is taken for a white space marker. -/
theorem C70_false_marker : ∃ s, (RawSyntax.mk c!"s" (some c!"<!--") (some c!"-->") none none none none).toSyntax isWsp = .ok s ∧
    (∃ e, parseTemplate ⟨s, Char.isLower⟩ c!"<!-- if x -->y<!-- endif -->" = .err e) ∧
    ∃ ns, parseTemplate ⟨Syntax.default, Char.isLower⟩ c!"{% if x %}y{% endif %}" = .ok ns :=
  ⟨_, rfl, ⟨_, rfl⟩, ⟨_, rfl⟩⟩

/-- C70: `<? if x ?>` is refused as well, since `x ?` is an expression. -/
theorem C70_false_try : ∃ s, (RawSyntax.mk c!"s" (some c!"<?") (some c!"?>") none none none none).toSyntax isWsp = .ok s ∧
    (∃ e, parseTemplate ⟨s, Char.isLower⟩ c!"<? if x ?>y<? endif ?>" = .err e) :=
  ⟨_, rfl, ⟨_, rfl⟩⟩

end Askama.Props
