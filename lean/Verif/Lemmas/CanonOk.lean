import Verif.Lemmas.CanonDef
import Verif.Spec.Parse

/-!
# Accepted templates can be written down if they are usual ones
-/

namespace Askama

open Spec

/-- No two texts in a row. -/
def NoTwoLits : List Node → Prop
  | [] => True
  | n :: ns => (isLitN n = true → ∀ m, ns.head? = some m → isLitN m = false) ∧ NoTwoLits ns

theorem noTwoLits_of_tiled {ds : List Str} {i e : Str} {ns : List Node} (h : Tiled ds i e ns) : NoTwoLits ns := by
  induction h with
  | nil => trivial
  | @lit l r e ns h1 h2 ih =>
    refine ⟨fun _ m hm => ?_, ih⟩
    cases h2 with
    | nil => cases hm
    | @lit l2 r2 _ ns2 h3 _ =>
      exfalso
      obtain ⟨hne, _, hf⟩ := h3
      rcases h1.2.1 with h | h
      · exact hne (List.append_eq_nil_iff.1 h).1
      · exact hf [] l2.text rfl hne h
    | @tag n _ _ _ ns2 _ hn _ _ =>
      simp only [List.head?_cons, Option.some.injEq] at hm
      subst hm
      cases n with
      | lit l => exact absurd rfl (hn l)
      | _ => rfl
  | @tag n i r e ns _ hn _ _ ih =>
    refine ⟨fun hl => ?_, ih⟩
    cases n with
    | lit l => exact absurd rfl (hn l)
    | _ => cases hl

theorem writableArgs_named : ∀ (named : List (Str × Expr)), (named.map (·.1)).Nodup →
    usualArgs (named.map fun x => Expr.namedArg x.1 x.2) → writableArgs (named.map fun x => Expr.namedArg x.1 x.2)
  | [], _, _ => trivial
  | (n, e) :: named, hd, hu => by
    simp only [List.map_cons, List.nodup_cons, usualArgs] at hd hu
    simp only [List.map_cons, writableArgs]
    refine ⟨hu.1, ?_, writableArgs_named named hd.2 hu.2⟩
    intro a ha
    obtain ⟨x, hx, rfl⟩ := List.mem_map.1 ha
    refine ⟨x.1, x.2, rfl, ?_⟩
    rintro rfl
    exact hd.1 (List.mem_map.2 ⟨x, hx, rfl⟩)

theorem writableArgs_of {args : List Expr} (h : ArgList args) (hu : usualArgs args) : writableArgs args := by
  obtain ⟨pos, named, rfl, hp, _, hn⟩ := h
  induction pos with
  | nil => exact writableArgs_named named hn hu
  | cons e es ih =>
    simp only [PlainL] at hp
    cases e <;> simp only [Plain, List.cons_append, usualArgs, writableArgs] at hp hu ⊢ <;>
      first | exact hp.1.elim | exact ⟨hu.1, ih hu.2 hp.2⟩

variable {isLower : Char → Bool} {syn : Syntax} {T : List Node → Prop}

mutual
theorem writableNode_of (hT : ∀ ns, T ns → NoTwoLits ns) (b : Bool) : (n : Node) → usualNode isLower syn n → AllN (nodeOk T) b n →
    writableNode isLower syn b n
  | .lit l, hu, _ | .comment w c, hu, _ | .expr _ e, hu, _ | .let_ _ p v, hu, _ | .raw _ l _, hu, _ => by
    simp only [usualNode, writableNode] at hu ⊢
    exact hu
  | .extends_ _, _, _ | .include _ _, _, _ | .import_ _ _ _, _, _ => by simp only [writableNode]
  | .break_ _, _, ha | .continue_ _, _, ha => by
    simp only [AllN, nodeOk, loopsOk] at ha
    simp only [writableNode]
    exact ha.1
  | .call _ _ _ args, hu, ha => by
    simp only [AllN, nodeOk, callsOk] at ha
    simp only [usualNode, writableNode] at hu ⊢
    exact writableArgs_of ha.2.2.1 hu
  | .if_ _ bs, hu, ha => by
    simp only [AllN, nodeOk, innerOk] at ha
    simp only [usualNode, writableNode] at hu ⊢
    exact writableConds_of hT b bs hu ha.2 ha.1.2.2.2.2.2
  | .match_ _ e arms _, hu, ha => by
    simp only [AllN, nodeOk, innerOk] at ha
    simp only [usualNode, writableNode] at hu ⊢
    exact ⟨hu.1, writableArms_of hT b true arms hu.2 ha.2 ha.1.2.2.2.2.2⟩
  | .loop _ p e c body _ els _, hu, ha => by
    simp only [AllN, nodeOk, innerOk] at ha
    simp only [usualNode, writableNode] at hu ⊢
    obtain ⟨h1, h2, h3, h4, h5, h6⟩ := hu
    exact ⟨h1, h2, h3, h4, writableNodes_of hT true body h5 ha.2.1 (hT _ ha.1.2.2.2.2.2.1),
      writableNodes_of hT b els h6 ha.2.2 (hT _ ha.1.2.2.2.2.2.2)⟩
  | .blockDef _ _ ns _, hu, ha => by
    simp only [AllN, nodeOk, innerOk] at ha
    simp only [usualNode, writableNode] at hu ⊢
    exact writableNodes_of hT b ns hu ha.2 (hT _ ha.1.2.2.2.2.2)
  | .macro _ _ _ ns _, hu, ha => by
    simp only [AllN, nodeOk, innerOk] at ha
    simp only [usualNode, writableNode] at hu ⊢
    exact writableNodes_of hT b ns hu ha.2 (hT _ ha.1.2.2.2.2.2)
  | .filterBlock _ f ns _, hu, ha => by
    simp only [AllN, nodeOk, innerOk] at ha
    simp only [usualNode, writableNode] at hu ⊢
    exact ⟨hu.1, writableNodes_of hT b ns hu.2 ha.2 (hT _ ha.1.2.2.2.2.2)⟩
theorem writableNodes_of (hT : ∀ ns, T ns → NoTwoLits ns) (b : Bool) : (ns : List Node) → usualNodes isLower syn ns →
    AllNs (nodeOk T) b ns → NoTwoLits ns → writableNodes isLower syn b ns
  | [], _, _, _ => by simp only [writableNodes]
  | n :: ns, hu, ha, hn => by
    simp only [usualNodes, AllNs, NoTwoLits] at hu ha hn
    simp only [writableNodes]
    exact ⟨writableNode_of hT b n hu.1 ha.1, hn.1, writableNodes_of hT b ns hu.2 ha.2 hn.2⟩
theorem writableConds_of (hT : ∀ ns, T ns → NoTwoLits ns) (b : Bool) : (bs : List Cond) → usualConds isLower syn bs →
    AllC (nodeOk T) b bs → (∀ w c ns, Cond.mk w c ns ∈ bs → T ns) → writableConds isLower syn b bs
  | [], _, _, _ => by simp only [writableConds]
  | .mk w c ns :: bs, hu, ha, hn => by
    simp only [usualConds, AllC] at hu ha
    simp only [writableConds]
    exact ⟨hu.1, writableNodes_of hT b ns hu.2.1 ha.1 (hT _ (hn _ _ _ List.mem_cons_self)),
      writableConds_of hT b bs hu.2.2 ha.2 fun w c ns h => hn w c ns (List.mem_cons_of_mem _ h)⟩
theorem writableArms_of (hT : ∀ ns, T ns → NoTwoLits ns) (b first : Bool) : (ws : List When) → usualArms isLower syn first ws →
    AllW (nodeOk T) b ws → (∀ w p ns, When.mk w p ns ∈ ws → T ns) → writableArms isLower syn b first ws
  | [], _, _, _ => by simp only [writableArms]
  | .mk w p ns :: ws, hu, ha, hn => by
    simp only [usualArms, AllW] at hu ha
    simp only [writableArms]
    exact ⟨hu.1, writableNodes_of hT b ns hu.2.1 ha.1 (hT _ (hn _ _ _ List.mem_cons_self)),
      writableArms_of hT b false ws hu.2.2 ha.2 fun w c ns h => hn w c ns (List.mem_cons_of_mem _ h)⟩
end

end Askama
