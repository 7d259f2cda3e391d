import Verif.Lemmas.GenFmt
import Verif.Lemmas.GenEval

/-!
Variables of a template and of the generated code side by side. A cell is a variable of both, or only of the template (a
macro parameter that stands for text), or only of the generated code (filter blocks; what blocks and included templates
leave behind).
-/

namespace Askama

open Askama.Spec

inductive Cell (U : Type) where
  | both (n : Str) (v : Option (Val U))
  | spec (n : Str) (v : Option (Val U))
  | rust (n : Str) (v : Option (Val U))

variable {U : Type}

namespace Cell

def name : Cell U → Str
  | .both n _ | .spec n _ | .rust n _ => n

end Cell

/-- The variables of the template. -/
def specVars : List (Cell U) → List (Str × Option (Val U))
  | [] => []
  | .both n v :: cs => (n, v) :: specVars cs
  | .spec n v :: cs => (n, v) :: specVars cs
  | .rust _ _ :: cs => specVars cs

/-- The variables of the generated code. -/
def rustVars : List (Cell U) → List (Str × Option (Val U))
  | [] => []
  | .both n v :: cs => (n, v) :: rustVars cs
  | .rust n v :: cs => (n, v) :: rustVars cs
  | .spec _ _ :: cs => rustVars cs

/-- The first cell of a name. -/
def firstCell (n : Str) : List (Cell U) → Option (Cell U)
  | [] => none
  | c :: cs => if c.name = n then some c else firstCell n cs

/-- The cells as seen from where none of the template's variables are visible. -/
def hide : List (Cell U) → List (Cell U)
  | [] => []
  | .both n v :: cs => .rust n v :: hide cs
  | .rust n v :: cs => .rust n v :: hide cs
  | .spec _ _ :: cs => hide cs

theorem specVars_append (a b : List (Cell U)) : specVars (a ++ b) = specVars a ++ specVars b := by
  induction a with
  | nil => rfl
  | cons c a ih => cases c <;> simp [specVars, ih]

theorem rustVars_append (a b : List (Cell U)) : rustVars (a ++ b) = rustVars a ++ rustVars b := by
  induction a with
  | nil => rfl
  | cons c a ih => cases c <;> simp [rustVars, ih]

@[simp] theorem specVars_hide (a : List (Cell U)) : specVars (hide a) = [] := by
  induction a with
  | nil => rfl
  | cons c a ih => cases c <;> simp [hide, specVars, ih]

@[simp] theorem rustVars_hide (a : List (Cell U)) : rustVars (hide a) = rustVars a := by
  induction a with
  | nil => rfl
  | cons c a ih => cases c <;> simp [hide, rustVars, ih]

theorem name_mem_hide {a : List (Cell U)} {c : Cell U} (h : c ∈ hide a) : ∃ d ∈ a, d.name = c.name := by
  induction a with
  | nil => simp [hide] at h
  | cons d a ih =>
    cases d <;> simp only [hide, List.mem_cons] at h
    · rcases h with h | h
      · subst h; exact ⟨_, List.mem_cons_self, rfl⟩
      · obtain ⟨e, he, hn⟩ := ih h; exact ⟨e, List.mem_cons_of_mem _ he, hn⟩
    · obtain ⟨e, he, hn⟩ := ih h; exact ⟨e, List.mem_cons_of_mem _ he, hn⟩
    · rcases h with h | h
      · subst h; exact ⟨_, List.mem_cons_self, rfl⟩
      · obtain ⟨e, he, hn⟩ := ih h; exact ⟨e, List.mem_cons_of_mem _ he, hn⟩

theorem firstCell_name {n : Str} {cs : List (Cell U)} {c : Cell U} (h : firstCell n cs = some c) : c.name = n := by
  induction cs with
  | nil => simp [firstCell] at h
  | cons d cs ih =>
    simp only [firstCell] at h
    split at h
    · cases h; assumption
    · exact ih h

theorem firstCell_pos {n : Str} {c : Cell U} {cs : List (Cell U)} (h : c.name = n) :
    firstCell n (c :: cs) = some c := by rw [firstCell, if_pos h]

theorem firstCell_neg {n : Str} {c : Cell U} {cs : List (Cell U)} (h : c.name ≠ n) :
    firstCell n (c :: cs) = firstCell n cs := by rw [firstCell, if_neg h]

theorem firstCell_append {n : Str} {a b : List (Cell U)} (h : ∀ c ∈ a, c.name ≠ n) :
    firstCell n (a ++ b) = firstCell n b := by
  induction a with
  | nil => rfl
  | cons d a ih =>
    rw [List.cons_append, firstCell, if_neg (h d List.mem_cons_self), ih fun c hc => h c (List.mem_cons_of_mem _ hc)]

/-- Both sides see the same value in a common variable. -/
theorem firstCell_both {n : Str} {cs : List (Cell U)} {v : Option (Val U)} (h : firstCell n cs = some (.both n v)) :
    lookupVar (rustVars cs) n = v ∧ lookupVar (specVars cs) n = v := by
  induction cs with
  | nil => simp [firstCell] at h
  | cons d cs ih =>
    simp only [firstCell] at h
    split at h
    · cases h; simp [rustVars, specVars, lookupVar]
    · rename_i hn
      have ih := ih h
      unfold lookupVar at ih ⊢
      cases d <;> simp_all [rustVars, specVars, Cell.name]

theorem firstCell_spec {n : Str} {cs : List (Cell U)} {v : Option (Val U)} (h : firstCell n cs = some (.spec n v)) :
    lookupVar (specVars cs) n = v := by
  induction cs with
  | nil => simp [firstCell] at h
  | cons d cs ih =>
    simp only [firstCell] at h
    split at h
    · cases h; simp [specVars, lookupVar]
    · rename_i hn
      have ih := ih h
      unfold lookupVar at ih ⊢
      cases d <;> simp_all [specVars, Cell.name]

theorem lookup_append_ne {a b : List (Str × Option (Val U))} {n : Str} (h : ∀ e ∈ a, e.1 ≠ n) :
    RExpr.varOf (a ++ b) n = RExpr.varOf b n := by
  unfold RExpr.varOf
  rw [List.find?_append, List.find?_eq_none.mpr (by simpa using h)]
  simp

theorem rustVars_names {cs : List (Cell U)} {e : Str × Option (Val U)} (h : e ∈ rustVars cs) :
    ∃ c ∈ cs, c.name = e.1 := by
  induction cs with
  | nil => simp [rustVars] at h
  | cons d cs ih =>
    cases d <;> simp only [rustVars, List.mem_cons] at h
    · rcases h with h | h
      · subst h; exact ⟨_, List.mem_cons_self, rfl⟩
      · obtain ⟨e, he, hn⟩ := ih h; exact ⟨e, List.mem_cons_of_mem _ he, hn⟩
    · obtain ⟨e, he, hn⟩ := ih h; exact ⟨e, List.mem_cons_of_mem _ he, hn⟩
    · rcases h with h | h
      · subst h; exact ⟨_, List.mem_cons_self, rfl⟩
      · obtain ⟨e, he, hn⟩ := ih h; exact ⟨e, List.mem_cons_of_mem _ he, hn⟩

/-- A common variable is found in the generated code. -/
theorem firstCell_find {n : Str} {cs : List (Cell U)} {v : Option (Val U)} (h : firstCell n cs = some (.both n v)) :
    (rustVars cs).find? (fun e => e.1 == n) = some (n, v) := by
  induction cs with
  | nil => simp [firstCell] at h
  | cons d cs ih =>
    simp only [firstCell] at h
    split at h
    · cases h; simp [rustVars]
    · rename_i hn
      have ih := ih h
      cases d <;> simp_all [rustVars, Cell.name]

/-- What no cell is named is not found. -/
theorem find_none {n : Str} {cs : List (Cell U)} (h : ∀ c ∈ cs, c.name ≠ n) :
    (rustVars cs).find? (fun e => e.1 == n) = none := by
  rw [List.find?_eq_none]
  intro e he hn
  obtain ⟨c, hc, hcn⟩ := rustVars_names he
  exact h c hc (hcn.trans (by simpa using hn))

/-! ## Assignments to existing variables -/

/-- Common variables outside `K` may have got other values. -/
inductive Upd (K : List Str) : List (Cell U) → List (Cell U) → Prop where
  | nil : Upd K [] []
  | same {a b : List (Cell U)} (c : Cell U) : Upd K a b → Upd K (c :: a) (c :: b)
  | set {a b : List (Cell U)} (n : Str) (v w : Option (Val U)) : n ∉ K → Upd K a b →
      Upd K (.both n v :: a) (.both n w :: b)

namespace Upd

variable {K : List Str} {a b c : List (Cell U)}

theorem refl (K : List Str) : (a : List (Cell U)) → Upd K a a
  | [] => .nil
  | c :: a => .same c (refl K a)

theorem trans (h : Upd K a b) (h2 : Upd K b c) : Upd K a c := by
  induction h generalizing c with
  | nil => exact h2
  | same d _ ih =>
    cases h2 with
    | same _ h2 => exact .same _ (ih h2)
    | set n v w hn h2 => exact .set n v w hn (ih h2)
  | set n v w hn _ ih =>
    cases h2 with
    | same _ h2 => exact .set _ _ _ hn (ih h2)
    | set n v w hn h2 => exact .set _ _ _ hn (ih h2)

theorem mono {K' : List Str} (hK : ∀ x ∈ K, x ∈ K') (h : Upd K' a b) : Upd K a b := by
  induction h with
  | nil => exact .nil
  | same c _ ih => exact .same c ih
  | set n v w hn _ ih => exact .set n v w (fun h => hn (hK n h)) ih

theorem spec_length (h : Upd K a b) : (specVars b).length = (specVars a).length := by
  induction h with
  | nil => rfl
  | same c _ ih => cases c <;> simp [specVars, ih]
  | set n v w hn _ ih => simp [specVars, ih]

theorem rust_length (h : Upd K a b) : (rustVars b).length = (rustVars a).length := by
  induction h with
  | nil => rfl
  | same c _ ih => cases c <;> simp [rustVars, ih]
  | set n v w hn _ ih => simp [rustVars, ih]

theorem first_both (h : Upd K a b) {n : Str} {v : Option (Val U)} (hf : firstCell n a = some (.both n v)) :
    ∃ w, firstCell n b = some (.both n w) := by
  induction h with
  | nil => simp [firstCell] at hf
  | same c _ ih =>
    simp only [firstCell] at hf ⊢
    split
    · rename_i hc; rw [if_pos hc] at hf; exact ⟨v, hf⟩
    · rename_i hc; rw [if_neg hc] at hf; exact ih hf
  | set m v w hn _ ih =>
    by_cases hc : m = n
    · subst hc; exact ⟨w, firstCell_pos rfl⟩
    · rw [firstCell_neg (by exact hc)] at hf ⊢; exact ih hf

theorem first_spec (h : Upd K a b) {n : Str} {v : Option (Val U)} (hf : firstCell n a = some (.spec n v)) :
    firstCell n b = some (.spec n v) := by
  induction h with
  | nil => simp [firstCell] at hf
  | same c _ ih =>
    simp only [firstCell] at hf ⊢
    split
    · rename_i hc; rw [if_pos hc] at hf; exact hf
    · rename_i hc; rw [if_neg hc] at hf; exact ih hf
  | set m v w hn _ ih =>
    by_cases hc : m = n
    · subst hc
      have h2 : ∀ cs, firstCell m (Cell.both m v :: cs) = some (.both m v) := fun _ => firstCell_pos rfl
      rw [h2] at hf; simp at hf
    · rw [firstCell_neg (by exact hc)] at hf ⊢; exact ih hf

theorem rust_lookup (h : Upd K a b) {n : Str} (hn : n ∈ K) :
    RExpr.varOf (rustVars b) n = RExpr.varOf (rustVars a) n := by
  unfold RExpr.varOf
  induction h with
  | nil => rfl
  | same c _ ih =>
    cases c with
    | spec m v => exact ih
    | both m v | rust m v =>
      simp only [rustVars]
      by_cases hm : m = n
      · rw [List.find?_cons_of_pos (by simpa using hm), List.find?_cons_of_pos (by simpa using hm)]
      · rw [List.find?_cons_of_neg (by simpa using hm), List.find?_cons_of_neg (by simpa using hm), ih]
  | set m v w hm _ ih =>
    have : m ≠ n := fun e => hm (e ▸ hn)
    simp only [rustVars]
    rw [List.find?_cons_of_neg (by simpa using this), List.find?_cons_of_neg (by simpa using this), ih]

theorem names (h : Upd K a b) : ∀ c ∈ b, ∃ d ∈ a, d.name = c.name := by
  induction h with
  | nil => simp
  | same c _ ih =>
    intro d hd
    rcases List.mem_cons.mp hd with rfl | hd
    · exact ⟨_, List.mem_cons_self, rfl⟩
    · obtain ⟨e, he, hn⟩ := ih d hd; exact ⟨e, List.mem_cons_of_mem _ he, hn⟩
  | set n v w hnK _ ih =>
    intro d hd
    rcases List.mem_cons.mp hd with rfl | hd
    · exact ⟨_, List.mem_cons_self, rfl⟩
    · obtain ⟨e, he, hn⟩ := ih d hd; exact ⟨e, List.mem_cons_of_mem _ he, hn⟩

theorem of_hide (h : Upd K (hide a) b) : b = hide a := by
  generalize hx : hide a = x at h
  induction h generalizing a with
  | nil => rfl
  | same c _ ih =>
    induction a with
    | nil => simp [hide] at hx
    | cons d a iha =>
      cases d with
      | spec n v => exact iha hx
      | both n v => simp only [hide, List.cons.injEq] at hx; rw [ih hx.2]
      | rust n v => simp only [hide, List.cons.injEq] at hx; rw [ih hx.2]
  | set n v w hn _ ih =>
    exfalso
    induction a with
    | nil => simp [hide] at hx
    | cons d a iha =>
      cases d with
      | spec n v => exact iha hx
      | both n v => simp [hide] at hx
      | rust n v => simp [hide] at hx

end Upd

/-- Assignment to a common variable. -/
theorem assign_cells {K : List Str} {n : Str} (hn : n ∉ K) (v : Val U) {cs : List (Cell U)} {w : Option (Val U)}
    (h : firstCell n cs = some (.both n w)) :
    ∃ cs', assignVar n v (specVars cs) = some (specVars cs') ∧ assignVar n v (rustVars cs) = some (rustVars cs')
      ∧ Upd K cs cs' := by
  induction cs with
  | nil => simp [firstCell] at h
  | cons d cs ih =>
    simp only [firstCell] at h
    split at h
    · cases h
      exact ⟨.both n (some v) :: cs, by simp [specVars, assignVar], by simp [rustVars, assignVar],
        .set _ _ _ hn (.refl K cs)⟩
    · rename_i hd
      obtain ⟨cs', h1, h2, hu⟩ := ih h
      refine ⟨d :: cs', ?_, ?_, .same d hu⟩
      · cases d <;> simp only [specVars, Cell.name] at hd ⊢ <;> simp [assignVar, hd, h1]
      · cases d <;> simp only [rustVars, Cell.name] at hd ⊢ <;> simp [assignVar, hd, h2]

/-! ## New variables -/

/-- Variables were declared, none of them in `K`, and common variables outside `K` may have got other values. -/
def Ext (K : List Str) (a b : List (Cell U)) : Prop :=
  ∃ new old, b = new ++ old ∧ Upd K a old ∧ ∀ c ∈ new, c.name ∉ K

namespace Ext

variable {K : List Str} {a b c : List (Cell U)}

theorem refl (K : List Str) (a : List (Cell U)) : Ext K a a := ⟨[], a, rfl, .refl K a, by simp⟩

theorem of_upd (h : Upd K a b) : Ext K a b := ⟨[], b, rfl, h, by simp⟩

theorem mono {K' : List Str} (hK : ∀ x ∈ K, x ∈ K') (h : Ext K' a b) : Ext K a b := by
  obtain ⟨new, old, rfl, hu, hn⟩ := h
  exact ⟨new, old, rfl, hu.mono hK, fun c hc h => hn c hc (hK _ h)⟩

theorem upd_append (h : Upd K (a ++ b) c) : ∃ x y, c = x ++ y ∧ Upd K a x ∧ Upd K b y := by
  induction a generalizing c with
  | nil => exact ⟨[], c, rfl, .nil, h⟩
  | cons d a ih =>
    cases h with
    | same _ h =>
      obtain ⟨x, y, rfl, h1, h2⟩ := ih h
      exact ⟨d :: x, y, rfl, .same d h1, h2⟩
    | set n v w hn h =>
      obtain ⟨x, y, rfl, h1, h2⟩ := ih h
      exact ⟨_ :: x, y, rfl, .set n v w hn h1, h2⟩

theorem upd_names (h : Upd K a b) (hn : ∀ c ∈ a, c.name ∉ K) : ∀ c ∈ b, c.name ∉ K := by
  induction h with
  | nil => exact hn
  | same c _ ih =>
    intro d hd
    rcases List.mem_cons.mp hd with rfl | hd
    · exact hn _ List.mem_cons_self
    · exact ih (fun e he => hn e (List.mem_cons_of_mem _ he)) d hd
  | set n v w hnK _ ih =>
    intro d hd
    rcases List.mem_cons.mp hd with rfl | hd
    · exact hnK
    · exact ih (fun e he => hn e (List.mem_cons_of_mem _ he)) d hd

theorem trans (h : Ext K a b) (h2 : Ext K b c) : Ext K a c := by
  obtain ⟨new, old, rfl, hu, hn⟩ := h
  obtain ⟨new2, old2, rfl, hu2, hn2⟩ := h2
  obtain ⟨x, y, rfl, hx, hy⟩ := upd_append hu2
  refine ⟨new2 ++ x, y, by simp, hu.trans hy, ?_⟩
  intro d hd
  rcases List.mem_append.mp hd with hd | hd
  · exact hn2 d hd
  · exact upd_names hx hn d hd

/-- Leaving a scope on both sides. -/
theorem leave (h : Ext K a b) : ∃ old, Upd K a old ∧ leaveVars (specVars a) (specVars b) = specVars old
    ∧ leaveVars (rustVars a) (rustVars b) = rustVars old := by
  obtain ⟨new, old, rfl, hu, hn⟩ := h
  refine ⟨old, hu, ?_, ?_⟩
  · simp [leaveVars, specVars_append, hu.spec_length]
  · simp [leaveVars, rustVars_append, hu.rust_length]

end Ext

/-- Names of new variables that are left behind in the scope where nodes stand: no paths. -/
def leftName (n : Str) : Prop := pathLike n = true → internal n = true

/-- Like `Ext`, and none of the new variables has the name of a path. -/
def Adds (K : List Str) (a b : List (Cell U)) : Prop :=
  ∃ new old, b = new ++ old ∧ Upd K a old ∧ ∀ c ∈ new, c.name ∉ K ∧ leftName c.name

namespace Adds

variable {K : List Str} {a b c : List (Cell U)}

theorem ext (h : Adds K a b) : Ext K a b := by
  obtain ⟨new, old, h1, h2, h3⟩ := h
  exact ⟨new, old, h1, h2, fun c hc => (h3 c hc).1⟩

theorem refl (K : List Str) (a : List (Cell U)) : Adds K a a := ⟨[], a, rfl, .refl K a, by simp⟩

theorem of_upd (h : Upd K a b) : Adds K a b := ⟨[], b, rfl, h, by simp⟩

theorem mono {K' : List Str} (hK : ∀ x ∈ K, x ∈ K') (h : Adds K' a b) : Adds K a b := by
  obtain ⟨new, old, rfl, hu, hn⟩ := h
  exact ⟨new, old, rfl, hu.mono hK, fun c hc => ⟨fun h => (hn c hc).1 (hK _ h), (hn c hc).2⟩⟩

theorem trans (h : Adds K a b) (h2 : Adds K b c) : Adds K a c := by
  obtain ⟨new, old, rfl, hu, hn⟩ := h
  obtain ⟨new2, old2, rfl, hu2, hn2⟩ := h2
  obtain ⟨x, y, rfl, hx, hy⟩ := Ext.upd_append hu2
  refine ⟨new2 ++ x, y, by simp, hu.trans hy, ?_⟩
  intro d hd
  rcases List.mem_append.mp hd with hd | hd
  · exact hn2 d hd
  · obtain ⟨e, he, hen⟩ := hx.names d hd
    rw [← hen]
    exact hn e he

end Adds

/-- New common variables. -/
def bindCells : List Str → List (Val U) → List (Cell U) → List (Cell U)
  | [], _, cs => cs
  | n :: ns, v :: vs, cs => bindCells ns vs (.both n (some v) :: cs)
  | n :: ns, [], cs => bindCells ns [] (.both n none :: cs)

theorem specVars_bindCells (ns : List Str) (vs : List (Val U)) (cs : List (Cell U)) :
    specVars (bindCells ns vs cs) = bindVars ns vs (specVars cs) := by
  induction ns generalizing vs cs with
  | nil => rfl
  | cons n ns ih => cases vs <;> simp [bindCells, bindVars, ih, specVars]

theorem rustVars_bindCells (ns : List Str) (vs : List (Val U)) (cs : List (Cell U)) :
    rustVars (bindCells ns vs cs) = bindVars ns vs (rustVars cs) := by
  induction ns generalizing vs cs with
  | nil => rfl
  | cons n ns ih => cases vs <;> simp [bindCells, bindVars, ih, rustVars]

theorem bindCells_eq (ns : List Str) (vs : List (Val U)) (cs : List (Cell U)) :
    ∃ new, bindCells ns vs cs = new ++ cs ∧ (∀ c ∈ new, c.name ∈ ns)
      ∧ ∀ n ∈ ns, ∃ v, firstCell n (bindCells ns vs cs) = some (.both n v) := by
  induction ns generalizing vs cs with
  | nil => exact ⟨[], rfl, by simp, by simp⟩
  | cons n ns ih =>
    have key : ∀ (w : Option (Val U)) vs', ∃ new, bindCells ns vs' (.both n w :: cs) = new ++ cs
        ∧ (∀ c ∈ new, c.name ∈ n :: ns)
        ∧ ∀ m ∈ n :: ns, ∃ v, firstCell m (bindCells ns vs' (.both n w :: cs)) = some (.both m v) := by
      intro w vs'
      obtain ⟨new, he, hn, hf⟩ := ih vs' (.both n w :: cs)
      refine ⟨new ++ [.both n w], by rw [he]; simp, ?_, ?_⟩
      · intro c hc
        rcases List.mem_append.mp hc with hc | hc
        · exact List.mem_cons_of_mem _ (hn c hc)
        · rw [List.mem_singleton] at hc; subst hc; exact List.mem_cons_self
      · intro m hm
        by_cases hmn : m ∈ ns
        · exact hf m hmn
        · rcases List.mem_cons.mp hm with rfl | hm
          · rw [he, firstCell_append (fun c hc hcn => hmn (by rw [← hcn]; exact hn c hc))]
            exact ⟨w, by simp [firstCell, Cell.name]⟩
          · exact absurd hm hmn
    cases vs with
    | nil => exact key none []
    | cons v vs => exact key (some v) vs

theorem bindCells_first_ne {ns : List Str} {vs : List (Val U)} {cs : List (Cell U)} {n : Str} (h : n ∉ ns) :
    firstCell n (bindCells ns vs cs) = firstCell n cs := by
  obtain ⟨new, he, hn, _⟩ := bindCells_eq ns vs cs
  rw [he, firstCell_append (fun c hc hcn => h (by rw [← hcn]; exact hn c hc))]

theorem bindCells_ext {K ns : List Str} (vs : List (Val U)) (cs : List (Cell U)) (h : ∀ n ∈ ns, n ∉ K) :
    Ext K cs (bindCells ns vs cs) := by
  obtain ⟨new, he, hn, _⟩ := bindCells_eq ns vs cs
  exact ⟨new, cs, he, .refl K cs, fun c hc => h _ (hn c hc)⟩

theorem bindCells_adds {K ns : List Str} (vs : List (Val U)) (cs : List (Cell U)) (h : ∀ n ∈ ns, n ∉ K)
    (h2 : ∀ n ∈ ns, leftName n) : Adds K cs (bindCells ns vs cs) := by
  obtain ⟨new, he, hn, _⟩ := bindCells_eq ns vs cs
  exact ⟨new, cs, he, .refl K cs, fun c hc => ⟨h _ (hn c hc), h2 _ (hn c hc)⟩⟩

theorem bindVars_lookup_ne {ns : List Str} {vs : List (Val U)} {vars : List (Str × Option (Val U))} {n : Str}
    (h : n ∉ ns) : RExpr.varOf (bindVars ns vs vars) n = RExpr.varOf vars n := by
  induction ns generalizing vs vars with
  | nil => rfl
  | cons m ns ih =>
    simp only [List.mem_cons, not_or] at h
    have : ∀ (w : Option (Val U)), RExpr.varOf ((m, w) :: vars) n = RExpr.varOf vars n := by
      intro w
      unfold RExpr.varOf
      rw [List.find?_cons_of_neg (by simpa using Ne.symm h.1)]
    cases vs with
    | nil => rw [bindVars, ih h.2, this]
    | cons v vs => rw [bindVars, ih h.2, this]

end Askama
