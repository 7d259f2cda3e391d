import Verif.Lemmas.StmtThread
import Verif.Lemmas.NodeShape

/-!
Templates that the parser accepts are shaped, so that of their parts only the rest of `Use.fine` is left to ask for.
-/

namespace Askama

open Askama.Spec

/-! ## The collected templates -/

/-- All entries of a map of templates. -/
def MapHas (P : List Node → Prop) (m : List (Str × List Node)) : Prop := ∀ e ∈ m, P e.2

section
variable {P : List Node → Prop}

theorem addToCheck_has (h0 : P []) {ld : Loader} {st st' : UseSt} {p : Str} (h : addToCheck ld st p = .ok st')
    (hs : MapHas P st.map) : MapHas P st'.map := by
  unfold addToCheck at h
  split at h
  · cases h; exact hs
  · split at h
    · cases h
    · cases h
      intro e he
      rcases List.mem_cons.mp he with rfl | he
      · exact h0
      · exact hs e he

theorem useNode_has (h0 : P []) {ld : Loader} {path : Str} {top : Bool} {st st' : UseSt} {n : Node}
    (h : useNode ld path top st n = .ok st') (hs : MapHas P st.map) : MapHas P st'.map := by
  unfold useNode at h
  repeat' split at h
  all_goals first
    | (cases h; done)
    | (cases h; exact hs)
    | exact addToCheck_has h0 h hs

theorem useNodes_has (h0 : P []) {ld : Loader} {path : Str} {top : Bool} : (ns : List Node) → {st : UseSt} →
    {nested : List (List Node)} → {x : UseSt × List (List Node)} → useNodes ld path top ns st nested = .ok x →
    MapHas P st.map → MapHas P x.1.map
  | [], _, _, _, h, hs => by cases h; exact hs
  | n :: ns, _, _, _, h, hs => by
    unfold useNodes at h
    obtain ⟨st1, h1, h⟩ := except_bind h
    exact useNodes_has h0 ns h (useNode_has h0 h1 hs)

theorem useLoop_has (h0 : P []) {ld : Loader} {path : Str} : (fuel : Nat) → {top : Bool} → {nested : List (List Node)} →
    {st st' : UseSt} → useLoop ld path fuel top nested st = .ok st' → MapHas P st.map → MapHas P st'.map
  | fuel, top, nested, st, st', h, hs => by
    unfold useLoop at h
    split at h
    · cases h; exact hs
    · cases fuel with
      | zero => cases h
      | succ fuel =>
        dsimp only at h
        obtain ⟨⟨st1, nested1⟩, h1, h⟩ := except_bind h
        exact useLoop_has h0 fuel h (useNodes_has h0 _ h1 hs)

theorem checkLoop_has (h0 : P []) {ld : Loader} (hp : ∀ src ns, ld.parse src = some ns → P ns) : (fuel : Nat) →
    {st : UseSt} → {m : List (Str × List Node)} → checkLoop ld fuel st = .ok m → MapHas P st.map → MapHas P m
  | fuel, st, m, h, hs => by
    unfold checkLoop at h
    split at h
    · cases h; exact hs
    · cases fuel with
      | zero => cases h
      | succ fuel =>
        dsimp only at h
        obtain ⟨st1, h1, h⟩ := except_bind h
        refine checkLoop_has h0 hp fuel h ?_
        unfold useTemplate at h1
        split at h1
        · cases h1
        · rename_i nodes hn
          obtain ⟨st2, h2, h1⟩ := except_bind h1
          cases h1
          intro e he
          rcases List.mem_cons.mp he with rfl | he
          · exact hp _ _ hn
          · exact useLoop_has h0 _ h2 (by exact hs) e he

end

/-- The nodes of every template that was collected come from the parser. -/
theorem used_has {P : List Node → Prop} (h0 : P []) {env : DeriveEnv} {c : Config} {syn : Syntax} {fuel : Nat}
    {path src : Str} {m : List (Str × List Node)} (h : findUsedTemplates (env.loader c syn) fuel path src = .ok m)
    (hp : ∀ src ns, parseTemplate ⟨syn, env.isLower⟩ src = .ok ns → P ns) : MapHas P m := by
  refine checkLoop_has h0 ?_ _ h (by intro e he; cases he)
  intro src ns hns
  unfold DeriveEnv.loader at hns
  dsimp only at hns
  unfold parseNodes at hns
  split at hns
  · rename_i nodes hok
    cases hns
    exact hp _ _ hok
  · cases hns

/-! ## Parts of parsed templates -/

theorem Use.plain.fine {u : Use} (h : u.plain) (hs : ∀ e ∈ u.exprs, shaped e = true) : u.fine := by
  cases u with
  | letChain op t l r =>
    simp only [Use.plain] at h
    obtain ⟨h1, rfl, h3, h4, h5⟩ := h
    have := hs _ (List.mem_singleton.mpr rfl)
    simp only [shaped, show binOpOf c!"&&" = some .and from rfl, Bool.and_eq_true, decide_eq_true_eq] at this
    exact ⟨h1, rfl, ⟨this.1.2, h3⟩, h4, ⟨this.2, h5⟩, by have := this.1.1.2; simpa [BinOp.prec] using this⟩
  | _ => simp_all [Use.plain, Use.fine, Use.exprs, Spec.Fine]

theorem condUse_exprs (t : CondTest) : (condUse t).exprs = [t.expr] := by
  obtain ⟨target, e⟩ := t
  cases target with
  | none => rfl
  | some t =>
    cases e with
    | binop op a b =>
      unfold condUse
      dsimp only
      split <;> rfl
    | _ => rfl

mutual
theorem node_fine : (n : Node) → nodeUses Use.plain n → (∀ id, ∀ e ∈ nodeExprs (Gen.filterVar id) n, shaped e = true) →
    nodeUses Use.fine n
  | .expr _ e, h, hs => by
    simp only [nodeUses] at h ⊢
    exact h.fine fun x hx => hs 0 x (by simpa [nodeExprs, Use.exprs] using hx)
  | .call _ _ name args, h, hs => by
    simp only [nodeUses] at h ⊢
    refine h.imp id fun h e he => (h e he).fine fun x hx => hs 0 x ?_
    simp only [Use.exprs, List.mem_singleton] at hx
    subst hx
    simpa [nodeExprs] using he
  | .let_ _ t val, h, hs => by
    simp only [nodeUses] at h ⊢
    refine ⟨h.1.fine (by simp [Use.exprs]), ?_⟩
    rintro e rfl
    exact (h.2 e rfl).fine fun x hx => hs 0 x (by simpa [nodeExprs, Use.exprs] using hx)
  | .if_ _ bs, h, hs => by
    simp only [nodeUses] at h ⊢
    exact ⟨h.1.fine (by simp [Use.exprs]), conds_fine bs h.2 fun i e he => hs i e (by simpa [nodeExprs] using he)⟩
  | .match_ _ e arms _, h, hs => by
    simp only [nodeUses] at h ⊢
    refine ⟨h.1.fine fun x hx => hs 0 x ?_, whens_fine arms h.2 fun i e he => hs i e (by simp [nodeExprs, he])⟩
    simp only [Use.exprs, List.mem_singleton] at hx
    simp [nodeExprs, hx]
  | .loop _ t iter cond body _ els _, h, hs => by
    simp only [nodeUses] at h ⊢
    refine ⟨h.1.fine (by simp [Use.exprs]), h.2.1.fine fun x hx => hs 0 x ?_, ?_,
      nodes_fine body h.2.2.2.1 fun i e he => hs i e (by simp [nodeExprs, he]),
      nodes_fine els h.2.2.2.2 fun i e he => hs i e (by simp [nodeExprs, he])⟩
    · simp only [Use.exprs, List.mem_singleton] at hx
      simp [nodeExprs, hx]
    · rintro c rfl
      refine (h.2.2.1 c rfl).fine fun x hx => hs 0 x ?_
      simp only [Use.exprs, List.mem_singleton] at hx
      simp [nodeExprs, hx]
  | .blockDef _ _ nodes _, h, hs => by
    simp only [nodeUses] at h ⊢
    exact nodes_fine nodes h fun i e he => hs i e (by simpa [nodeExprs] using he)
  | .macro _ _ args nodes _, h, hs => by
    simp only [nodeUses] at h ⊢
    exact ⟨fun p hp => (h.1 p hp).fine (by simp [Use.exprs]),
      nodes_fine nodes h.2 fun i e he => hs i e (by simpa [nodeExprs] using he)⟩
  | .filterBlock _ f nodes _, h, hs => by
    simp only [nodeUses] at h ⊢
    refine ⟨fun id => (h.1 id).fine fun x hx => hs id x ?_, nodes_fine nodes h.2 fun i e he => hs i e (by simp [nodeExprs, he])⟩
    simp only [Use.exprs, List.mem_singleton] at hx
    simp [nodeExprs, hx]
  | .lit _, _, _ | .comment _ _, _, _ | .extends_ _, _, _ | .include _ _, _, _ | .import_ _ _ _, _, _ | .raw _ _ _, _, _
  | .break_ _, _, _ | .continue_ _, _, _ => by simp only [nodeUses]
theorem nodes_fine : (ns : List Node) → nodesUses Use.plain ns →
    (∀ id, ∀ e ∈ nodesExprs (Gen.filterVar id) ns, shaped e = true) → nodesUses Use.fine ns
  | [], _, _ => by simp only [nodesUses]
  | n :: ns, h, hs => by
    simp only [nodesUses] at h ⊢
    exact ⟨node_fine n h.1 fun i e he => hs i e (by simp [nodesExprs, he]),
      nodes_fine ns h.2 fun i e he => hs i e (by simp [nodesExprs, he])⟩
theorem conds_fine : (bs : List Cond) → condUses Use.plain bs →
    (∀ id, ∀ e ∈ condExprs (Gen.filterVar id) bs, shaped e = true) → condUses Use.fine bs
  | [], _, _ => by simp only [condUses]
  | .mk _ c ns :: bs, h, hs => by
    simp only [condUses] at h ⊢
    refine ⟨?_, nodes_fine ns h.2.1 fun i e he => hs i e (by simp [condExprs, he]),
      conds_fine bs h.2.2 fun i e he => hs i e (by simp [condExprs, he])⟩
    rintro t rfl
    refine (h.1 t rfl).fine fun x hx => hs 0 x ?_
    rw [condUse_exprs] at hx
    simp only [List.mem_singleton] at hx
    simp [condExprs, hx]
theorem whens_fine : (ws : List When) → whenUses Use.plain ws →
    (∀ id, ∀ e ∈ whenExprs (Gen.filterVar id) ws, shaped e = true) → whenUses Use.fine ws
  | [], _, _ => by simp only [whenUses]
  | .mk _ t ns :: ws, h, hs => by
    simp only [whenUses] at h ⊢
    exact ⟨h.1.fine (by simp [Use.exprs]), nodes_fine ns h.2.1 fun i e he => hs i e (by simp [whenExprs, he]),
      whens_fine ws h.2.2 fun i e he => hs i e (by simp [whenExprs, he])⟩
end

/-- Of the parts of a parsed template, only the rest of `Use.fine` is to be asked for. -/
theorem parsed_fine {env : PEnv} {src : Str} {nodes : List Node} (h : parseTemplate env src = .ok nodes)
    (hu : nodesUses Use.plain nodes) : nodesUses Use.fine nodes :=
  nodes_fine nodes hu fun id => template_shaped h (filterVar_isName id)

/-! ## Exactly the parts of some templates -/

mutual
theorem node_inter {Q : (Use → Prop) → Prop} : (n : Node) → (∀ X, Q X → nodeUses X n) →
    nodeUses (fun u => ∀ X, Q X → X u) n
  | .expr _ e, h => by simpa only [nodeUses] using h
  | .call _ _ name args, h => by
    simp only [nodeUses] at h ⊢
    by_cases hn : name = c!"super"
    · exact .inl hn
    · exact .inr fun e he X hX => (h X hX).resolve_left hn e he
  | .let_ _ t val, h => by
    simp only [nodeUses] at h ⊢
    exact ⟨fun X hX => (h X hX).1, fun e he X hX => (h X hX).2 e he⟩
  | .if_ _ bs, h => by
    simp only [nodeUses] at h ⊢
    exact ⟨fun X hX => (h X hX).1, conds_inter bs fun X hX => (h X hX).2⟩
  | .match_ _ e arms _, h => by
    simp only [nodeUses] at h ⊢
    exact ⟨fun X hX => (h X hX).1, whens_inter arms fun X hX => (h X hX).2⟩
  | .loop _ t iter cond body _ els _, h => by
    simp only [nodeUses] at h ⊢
    exact ⟨fun X hX => (h X hX).1, fun X hX => (h X hX).2.1, fun c hc X hX => (h X hX).2.2.1 c hc,
      nodes_inter body fun X hX => (h X hX).2.2.2.1, nodes_inter els fun X hX => (h X hX).2.2.2.2⟩
  | .blockDef _ _ nodes _, h => by
    simp only [nodeUses] at h ⊢
    exact nodes_inter nodes h
  | .macro _ _ args nodes _, h => by
    simp only [nodeUses] at h ⊢
    exact ⟨fun p hp X hX => (h X hX).1 p hp, nodes_inter nodes fun X hX => (h X hX).2⟩
  | .filterBlock _ f nodes _, h => by
    simp only [nodeUses] at h ⊢
    exact ⟨fun id X hX => (h X hX).1 id, nodes_inter nodes fun X hX => (h X hX).2⟩
  | .lit _, _ | .comment _ _, _ | .extends_ _, _ | .include _ _, _ | .import_ _ _ _, _ | .raw _ _ _, _
  | .break_ _, _ | .continue_ _, _ => by simp only [nodeUses]
theorem nodes_inter {Q : (Use → Prop) → Prop} : (ns : List Node) → (∀ X, Q X → nodesUses X ns) →
    nodesUses (fun u => ∀ X, Q X → X u) ns
  | [], _ => by simp only [nodesUses]
  | n :: ns, h => by
    simp only [nodesUses] at h ⊢
    exact ⟨node_inter n fun X hX => (h X hX).1, nodes_inter ns fun X hX => (h X hX).2⟩
theorem conds_inter {Q : (Use → Prop) → Prop} : (bs : List Cond) → (∀ X, Q X → condUses X bs) →
    condUses (fun u => ∀ X, Q X → X u) bs
  | [], _ => by simp only [condUses]
  | .mk _ c ns :: bs, h => by
    simp only [condUses] at h ⊢
    exact ⟨fun t ht X hX => (h X hX).1 t ht, nodes_inter ns fun X hX => (h X hX).2.1,
      conds_inter bs fun X hX => (h X hX).2.2⟩
theorem whens_inter {Q : (Use → Prop) → Prop} : (ws : List When) → (∀ X, Q X → whenUses X ws) →
    whenUses (fun u => ∀ X, Q X → X u) ws
  | [], _ => by simp only [whenUses]
  | .mk _ t ns :: ws, h => by
    simp only [whenUses] at h ⊢
    exact ⟨fun X hX => (h X hX).1, nodes_inter ns fun X hX => (h X hX).2.1, whens_inter ws fun X hX => (h X hX).2.2⟩
end

/-- All parts of the templates occur in them. -/
theorem uses_occur {templates : List (Str × List Node)} {e : Str × List Node} (he : e ∈ templates) :
    nodesUses (PartOf templates) e.2 :=
  nodes_inter e.2 fun _ hX => hX e he

end Askama
