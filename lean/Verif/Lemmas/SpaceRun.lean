import Verif.Lemmas.SpaceNodes
import Verif.Lemmas.GenOut

/-! Code without white space of its own writes the same, but for white space; contexts without white space. -/

namespace Askama

open Askama.Spec Gen

/-! ## Running code -/

section

variable {U : Type} {W : World U}

/-- The same outcome, but for white space. -/
inductive Same : Option (Str × Sig × REnv U) → Option (Str × Sig × REnv U) → Prop where
  | none : Same none none
  | some {s s' : Str} {sig : Sig} {ρ : REnv U} : squeeze s = squeeze s' → Same (some (s, sig, ρ)) (some (s', sig, ρ))

theorem Same.refl (x : Option (Str × Sig × REnv U)) : Same x x := by
  cases x with
  | none => exact .none
  | some x => exact .some rfl

theorem Same.onEnv {a b : Option (Str × Sig × REnv U)} (h : Same a b) (F : REnv U → REnv U) :
    Same (a.map fun r => (r.1, r.2.1, F r.2.2)) (b.map fun r => (r.1, r.2.1, F r.2.2)) := by
  cases h with
  | none => exact .none
  | some h => exact .some h

theorem Same.seq {a b : Option (Str × Sig × REnv U)} (h : Same a b) {f g : REnv U → Option (Str × Sig × REnv U)}
    (hf : ∀ ρ, Same (f ρ) (g ρ)) : Same (seqE a f) (seqE b g) := by
  cases h with
  | none => exact .none
  | @some s s' sig ρ h =>
    unfold seqE
    cases sig with
    | next =>
      simp only [Option.bind_some]
      have hk := hf ρ
      revert hk
      generalize f ρ = a
      generalize g ρ = b
      intro hk
      cases hk with
      | none => exact .none
      | some h2 => exact .some (by rw [squeeze_append, squeeze_append, h, h2])
    | _ => exact .some h

theorem showPieces_bare (args : List (Str × Option Str × Val U)) : (ps : List Piece) → (seen : List Str) →
    (showPieces W args seen (ps.filter blackPiece)).map squeeze = (showPieces W args seen ps).map squeeze
  | [], _ => rfl
  | .ch c :: ps, seen => by
    have ih := showPieces_bare args ps seen
    cases hb : black c with
    | true =>
      have : (Piece.ch c :: ps).filter blackPiece = .ch c :: ps.filter blackPiece := by simp [blackPiece, hb]
      rw [this]
      simp only [showPieces]
      cases ha : showPieces W args seen (ps.filter blackPiece) with
      | none =>
        rw [ha] at ih
        cases hc : showPieces W args seen ps with
        | none => rfl
        | some y => rw [hc] at ih; cases ih
      | some x =>
        rw [ha] at ih
        cases hc : showPieces W args seen ps with
        | none => rw [hc] at ih; cases ih
        | some y =>
          rw [hc] at ih
          simp only [Option.map_some, Option.some.injEq] at ih ⊢
          simp [squeeze, hb]
          exact ih
    | false =>
      have : (Piece.ch c :: ps).filter blackPiece = ps.filter blackPiece := by simp [blackPiece, hb]
      rw [this, ih]
      simp only [showPieces]
      cases showPieces W args seen ps with
      | none => rfl
      | some y => simp [squeeze, hb]
  | .arg n :: ps, seen => by
    have ih := showPieces_bare args ps (n :: seen)
    rw [show (Piece.arg n :: ps).filter blackPiece = .arg n :: ps.filter blackPiece from rfl]
    simp only [showPieces]
    cases args.find? (fun a => a.1 == n) with
    | none => rfl
    | some a =>
      simp only [Option.bind_some]
      cases showArg W a.2.1 a.2.2 (seen.count n) with
      | none => rfl
      | some t =>
        simp only [Option.bind_some]
        cases ha : showPieces W args (n :: seen) (ps.filter blackPiece) with
        | none =>
          rw [ha] at ih
          cases hc : showPieces W args (n :: seen) ps with
          | none => rfl
          | some y => rw [hc] at ih; cases ih
        | some x =>
          rw [ha] at ih
          cases hc : showPieces W args (n :: seen) ps with
          | none => rw [hc] at ih; cases ih
          | some y =>
            rw [hc] at ih
            simp only [Option.map_some, Option.some.injEq, squeeze_append] at ih ⊢
            rw [ih]

theorem formatText_bare {f : Str} (hf : SpaceFine f) (ρ : REnv U) (args : List FmtArg) :
    (formatText W ρ (squeeze f) args).map squeeze = (formatText W ρ f args).map squeeze := by
  obtain ⟨ps, h1, h2⟩ := hf
  unfold formatText
  rw [h1.parse, h2.parse]
  simp only [Option.bind_some]
  cases evalArgs W ρ args with
  | none => rfl
  | some vs => exact showPieces_bare vs ps []

theorem forItems_bare (t : Target) {f g : REnv U → Option (Str × Sig × REnv U)} (h : ∀ ρ, Same (f ρ) (g ρ)) :
    (vs : List (Val U)) → (i : Nat) → (ρ : REnv U) →
    Same ((forItems W t f vs i ρ).map fun (s, ρ') => (s, .next, ρ')) ((forItems W t g vs i ρ).map fun (s, ρ') => (s, .next, ρ'))
  | [], _, _ => .some rfl
  | v :: vs, i, ρ => by
    simp only [forItems]
    cases patMatch W t v with
    | none => exact .none
    | some ws =>
      simp only [Option.bind_some]
      have hk := h { ρ with vars := bindVars (t.bound W) ws ρ.vars, item := some { index := i, first := i == 0, last := vs.isEmpty } }
      revert hk
      generalize f { ρ with vars := bindVars (t.bound W) ws ρ.vars, item := some { index := i, first := i == 0, last := vs.isEmpty } } = a
      generalize g { ρ with vars := bindVars (t.bound W) ws ρ.vars, item := some { index := i, first := i == 0, last := vs.isEmpty } } = b
      intro hk
      cases hk with
      | none => exact .none
      | @some s s' sig ρ' h2 =>
        simp only [Option.bind_some]
        have ih := forItems_bare t h vs (i + 1) { ρ' with vars := leaveVars ρ.vars ρ'.vars, item := ρ.item }
        have key : Same ((Option.map (fun (x : Str × REnv U) => (s ++ x.1, x.2)) (forItems W t f vs (i + 1)
              { ρ' with vars := leaveVars ρ.vars ρ'.vars, item := ρ.item })).map fun (s, ρ') => (s, .next, ρ'))
            ((Option.map (fun (x : Str × REnv U) => (s' ++ x.1, x.2)) (forItems W t g vs (i + 1)
              { ρ' with vars := leaveVars ρ.vars ρ'.vars, item := ρ.item })).map fun (s, ρ') => (s, .next, ρ')) := by
          revert ih
          generalize forItems W t f vs (i + 1) { ρ' with vars := leaveVars ρ.vars ρ'.vars, item := ρ.item } = a
          generalize forItems W t g vs (i + 1) { ρ' with vars := leaveVars ρ.vars ρ'.vars, item := ρ.item } = b
          intro ih
          cases a with
          | none =>
            cases b with
            | none => exact .none
            | some y => cases ih
          | some x =>
            cases b with
            | none => cases ih
            | some y =>
              obtain ⟨x1, x2⟩ := x
              obtain ⟨y1, y2⟩ := y
              cases ih with
              | some h3 => exact .some (by rw [squeeze_append, squeeze_append, h2, h3])
        cases sig with
        | brk => exact .some h2
        | _ => exact key

mutual
theorem exec_bare : (s : Stmt) → FineStmt s → ∀ ρ : REnv U, Same (execList W ρ (bareStmt s)) (s.exec W ρ)
  | .writeLit s, _, ρ => by
    unfold bareStmt
    by_cases hs : squeeze s = []
    · rw [if_pos hs]
      exact .some (by rw [hs]; rfl)
    · rw [if_neg hs, execList_single]
      exact .some (squeeze_idem s)
  | .writeFmt f args, h, ρ => by
    unfold bareStmt
    rw [execList_single]
    simp only [Stmt.exec]
    have := formatText_bare (W := W) (show SpaceFine f from h) ρ args
    cases ha : formatText W ρ (squeeze f) args with
    | none =>
      rw [ha] at this
      cases hb : formatText W ρ f args with
      | none => exact .none
      | some y => rw [hb] at this; cases this
    | some x =>
      rw [ha] at this
      cases hb : formatText W ρ f args with
      | none => rw [hb] at this; cases this
      | some y => rw [hb] at this; exact .some (Option.some.inj this)
  | .if_ bs, h, ρ => by
    unfold bareStmt
    rw [execList_single]
    simp only [Stmt.exec]
    exact execIf_bare bs (by simpa [FineStmt] using h) ρ
  | .match_ e arms, h, ρ => by
    unfold bareStmt
    rw [execList_single]
    simp only [Stmt.exec]
    cases e.eval W ρ with
    | none => exact .none
    | some v => exact execMatch_bare arms (by simpa [FineStmt] using h) ρ v
  | .block b, h, ρ => by
    unfold bareStmt
    rw [execList_single]
    simp only [Stmt.exec]
    exact (execList_bare b (by simpa [FineStmt] using h) ρ).onEnv (fun ρ' => { ρ with vars := leaveVars ρ.vars ρ'.vars })
  | .forIter t b, h, ρ => by
    unfold bareStmt
    rw [execList_single]
    simp only [Stmt.exec]
    exact forItems_bare t (execList_bare b (by simpa [FineStmt] using h)) _ _ _
  | .ifNotDid b, h, ρ => by
    unfold bareStmt
    rw [execList_single]
    simp only [Stmt.exec]
    split
    · exact .refl _
    · exact (execList_bare b (by simpa [FineStmt] using h) ρ).onEnv (fun ρ' => { ρ' with vars := leaveVars ρ.vars ρ'.vars })
  | .letDecl _, _, ρ | .letInit _ _, _, ρ | .assign _ _, _, ρ | .letMany _ _, _, ρ | .letStr _ _, _, ρ | .letFmt _ _ _, _, ρ
  | .letDid, _, ρ | .setDid, _, ρ | .letIter _, _, ρ | .filterIter _ _, _, ρ | .brk, _, ρ | .cont, _, ρ | .includeBytes _, _, ρ => by
    unfold bareStmt
    rw [execList_single]
    exact .refl _
theorem execList_bare : (ss : List Stmt) → FineS ss → ∀ ρ : REnv U, Same (execList W ρ (bareS ss)) (execList W ρ ss)
  | [], _, ρ => .some rfl
  | s :: ss, h, ρ => by
    rw [execList_cons]
    unfold bareS
    rw [execList_append]
    exact (exec_bare s h.1 ρ).seq (execList_bare ss h.2)
theorem execIf_bare : (bs : List Branch) → FineBranches bs → ∀ ρ : REnv U, Same (execIf W ρ (bareBranches bs)) (execIf W ρ bs)
  | [], _, ρ => .some rfl
  | .mk c b :: bs, h, ρ => by
    simp only [bareBranches, execIf]
    cases c.holds W ρ with
    | none => exact .none
    | some r =>
      cases r with
      | none => exact execIf_bare bs h.2 ρ
      | some ρ' => exact (execList_bare b h.1 ρ').onEnv (fun ρ' => { ρ' with vars := leaveVars ρ.vars ρ'.vars })
theorem execMatch_bare : (bs : List Arm) → FineArms bs → ∀ (ρ : REnv U) (v : Val U), Same (execMatch W ρ v (bareArms bs)) (execMatch W ρ v bs)
  | [], _, ρ, v => .none
  | .mk t b :: bs, h, ρ, v => by
    simp only [bareArms, execMatch]
    cases patMatch W t v with
    | none => exact execMatch_bare bs h.2 ρ v
    | some vs => exact (execList_bare b h.1 _).onEnv (fun ρ' => { ρ' with vars := leaveVars ρ.vars ρ'.vars })
end

end

theorem output_bare {U : Type} (W : World U) {code : List Stmt} (h : FineS code) :
    (output W (bareS code)).map squeeze = (output W code).map squeeze := by
  unfold output
  have hk := execList_bare (W := W) code h ⟨[], none, false, []⟩
  revert hk
  generalize execList W ⟨[], none, false, []⟩ (bareS code) = a
  generalize execList W ⟨[], none, false, []⟩ code = b
  intro hk
  cases hk with
  | none => rfl
  | some h => exact congrArg some h

end Askama
