import Verif.Spec.Derive

/-! The arguments of `#[template(…)]` (C62). -/

namespace Askama.Props

open Spec

theorem findTemplateAttr_iff : (attrs : List Attr) → (found : Option (List AttrItem)) → (r : Option (List AttrItem)) →
    (findTemplateAttr attrs found = .ok r ↔
      (templateAttrs attrs = [] ∧ r = found) ∨
      (found = none ∧ ∃ a items, templateAttrs attrs = [a] ∧ a.args = some items ∧ r = some items))
  | [], found, r => by simp [findTemplateAttr, templateAttrs, eq_comm]
  | a :: as, found, r => by
    have ih := findTemplateAttr_iff as
    rw [findTemplateAttr]
    by_cases hp : a.path = [c!"template"]
    · have hf : templateAttrs (a :: as) = a :: templateAttrs as := by simp [templateAttrs, hp]
      rw [if_neg (by simp [hp])]
      cases ha : a.args with
      | none => simp only [hf]; grind
      | some items =>
        cases found with
        | none => simp only [Option.isNone_none, if_true, ih, hf]; grind
        | some f => simp only [Option.isNone_some, hf]; grind
    · have hf : templateAttrs (a :: as) = templateAttrs as := by simp [templateAttrs, hp]
      rw [if_pos (by simpa using hp), ih, hf]

/-- One pair on top of given arguments. -/
def put (a : DeriveArgs) (k v : Str) : DeriveArgs :=
  if k = c!"path" then { a with source := some (.path v) }
  else if k = c!"source" then { a with source := some (.source v) }
  else if k = c!"block" then { a with block := some v }
  else if k = c!"print" then { a with print := (Print.parse v).toOption.getD .none }
  else if k = c!"escape" then { a with escaping := some v }
  else if k = c!"ext" then { a with ext := some v }
  else if k = c!"syntax" then { a with syn := some v }
  else if k = c!"config" then { a with config := some v }
  else if k = c!"whitespace" then { a with whitespace := some v }
  else a

/-- The pairs on top of given arguments. -/
def putAll (a : DeriveArgs) : List (Str × Str) → DeriveArgs
  | [] => a
  | (k, v) :: rest => putAll (put a k v) rest

theorem printModes_iff (s : Str) (m : Print) : Print.parse s = .ok m ↔ (s, m) ∈ printModes := by
  unfold Print.parse printModes
  simp only [List.mem_cons, Prod.mk.injEq, List.not_mem_nil, or_false]
  repeat' split
  all_goals simp_all [eq_comm]
/-- When a pair can be put on top. -/
def CanPut (a : DeriveArgs) (k v : Str) : Prop :=
  k ∈ knownKeys ∧ (k = c!"print" → ∃ m, (v, m) ∈ printModes) ∧ (k = c!"path" ∨ k = c!"source" → a.source = none)

theorem set_str_iff (a b : DeriveArgs) (k v : Str) : a.set k (.str v) = .ok b ↔ CanPut a k v ∧ b = put a k v := by
  simp only [← printModes_iff, CanPut, knownKeys, List.mem_cons, List.not_mem_nil, or_false]
  unfold DeriveArgs.set put
  simp only [AttrLit.string, bind, Except.bind, pure, Except.pure]
  by_cases h1 : k = c!"path"
  · subst h1; simp; cases a.source <;> simp; exact eq_comm
  by_cases h2 : k = c!"source"
  · subst h2; simp; cases a.source <;> simp; exact eq_comm
  by_cases h3 : k = c!"block"
  · subst h3; simp; exact eq_comm
  by_cases h4 : k = c!"print"
  · subst h4; simp; cases Print.parse v <;> simp [Except.toOption]; exact eq_comm
  by_cases h5 : k = c!"escape"
  · subst h5; simp; exact eq_comm
  by_cases h6 : k = c!"ext"
  · subst h6; simp; exact eq_comm
  by_cases h7 : k = c!"syntax"
  · subst h7; simp; exact eq_comm
  by_cases h8 : k = c!"config"
  · subst h8; simp; exact eq_comm
  by_cases h9 : k = c!"whitespace"
  · subst h9; simp; exact eq_comm
  simp [h1, h2, h3, h4, h5, h6, h7, h8, h9]

theorem set_other (a b : DeriveArgs) (k : Str) : a.set k .other ≠ .ok b := by
  unfold DeriveArgs.set
  simp only [AttrLit.string, bind, Except.bind]
  repeat' split
  all_goals simp

theorem readItem_iff (a b : DeriveArgs) (i : AttrItem) :
    readItem a i = .ok b ↔ ∃ k v, argOf i = some (k, v) ∧ CanPut a k v ∧ b = put a k v := by
  cases i with
  | other => simp [readItem, argOf]
  | nameValue path value =>
    match path with
    | [] => simp [readItem, argOf]
    | _ :: _ :: _ => simp [readItem, argOf]
    | [key] =>
      match value with
      | .lit (.str v) =>
        simp only [readItem, argOf, AttrValue.literal, bind, Except.bind, set_str_iff, Option.some.injEq, Prod.mk.injEq]
        exact ⟨fun h => ⟨key, v, ⟨rfl, rfl⟩, h⟩, fun ⟨k, w, ⟨e1, e2⟩, h⟩ => by subst e1 e2; exact h⟩
      | .groupLit (.str v) =>
        simp only [readItem, argOf, AttrValue.literal, bind, Except.bind, set_str_iff, Option.some.injEq, Prod.mk.injEq]
        exact ⟨fun h => ⟨key, v, ⟨rfl, rfl⟩, h⟩, fun ⟨k, w, ⟨e1, e2⟩, h⟩ => by subst e1 e2; exact h⟩
      | .lit .other => simp [readItem, argOf, AttrValue.literal, bind, Except.bind, set_other]
      | .groupLit .other => simp [readItem, argOf, AttrValue.literal, bind, Except.bind, set_other]
      | .groupOther => simp [readItem, argOf, AttrValue.literal, bind, Except.bind]
      | .other => simp [readItem, argOf, AttrValue.literal, bind, Except.bind]

/-- All pairs can be put on top, one after the other. -/
def CanPutAll (a : DeriveArgs) : List (Str × Str) → Prop
  | [] => True
  | (k, v) :: rest => CanPut a k v ∧ CanPutAll (put a k v) rest

theorem readItems_iff : (items : List AttrItem) → (a b : DeriveArgs) →
    (readItems items a = .ok b ↔ ∃ pairs, items.map argOf = pairs.map some ∧ CanPutAll a pairs ∧ b = putAll a pairs)
  | [], a, b => by
    simp only [readItems, List.map_nil]
    constructor
    · intro h; cases h; exact ⟨[], rfl, trivial, rfl⟩
    · rintro ⟨pairs, h1, _, h3⟩
      cases pairs with
      | nil => rw [h3]; rfl
      | cons p ps => simp at h1
  | i :: is, a, b => by
    have ih := readItems_iff is
    simp only [readItems, bind, Except.bind]
    constructor
    · intro h
      cases h1 : readItem a i with
      | error e => rw [h1] at h; simp at h
      | ok c =>
        rw [h1] at h
        obtain ⟨k, v, h2, h3, rfl⟩ := (readItem_iff _ _ _).1 h1
        obtain ⟨pairs, h4, h5, h6⟩ := (ih _ _).1 h
        exact ⟨(k, v) :: pairs, by simp [h2, h4], ⟨h3, h5⟩, h6⟩
    · rintro ⟨pairs, h1, h2, h3⟩
      cases pairs with
      | nil => simp at h1
      | cons p ps =>
        obtain ⟨k, v⟩ := p
        simp only [List.map_cons, List.cons.injEq] at h1
        rw [(readItem_iff a (put a k v) i).2 ⟨k, v, h1.1, h2.1, rfl⟩]
        exact (ih _ _).2 ⟨ps, h1.2, h2.2, h3⟩

theorem put_source (a : DeriveArgs) (k v : Str) : (put a k v).source =
    if k = c!"path" then some (.path v) else if k = c!"source" then some (.source v) else a.source := by
  unfold put; repeat' split
  all_goals rfl

theorem canPutAll_iff : (pairs : List (Str × Str)) → (a : DeriveArgs) → (CanPutAll a pairs ↔
    (∀ p ∈ pairs, p.1 ∈ knownKeys) ∧ (∀ p ∈ pairs, p.1 = c!"print" → ∃ m, (p.2, m) ∈ printModes) ∧
    (pairs.filter fun p => p.1 = c!"path" ∨ p.1 = c!"source").length + (if a.source.isSome then 1 else 0) ≤ 1)
  | [], a => by simp only [CanPutAll]; simp; split <;> simp
  | (k, v) :: rest, a => by
    rw [CanPutAll, canPutAll_iff rest, CanPut, put_source]
    have hl : (((k, v) :: rest).filter fun p => p.1 = c!"path" ∨ p.1 = c!"source").length =
        (rest.filter fun p => p.1 = c!"path" ∨ p.1 = c!"source").length +
        (if k = c!"path" ∨ k = c!"source" then 1 else 0) := by
      rw [List.filter_cons]; grind
    rw [hl]
    generalize (rest.filter fun p => p.1 = c!"path" ∨ p.1 = c!"source").length = n
    clear hl
    simp only [List.forall_mem_cons]
    generalize (∀ p ∈ rest, p.1 ∈ knownKeys) = A
    generalize (∀ p ∈ rest, p.1 = c!"print" → ∃ m, (p.2, m) ∈ printModes) = B
    generalize (k = c!"print" → ∃ m, (v, m) ∈ printModes) = C
    generalize (k ∈ knownKeys) = D
    by_cases h1 : k = c!"path"
    · subst h1; cases a.source <;> simp <;> grind
    by_cases h2 : k = c!"source"
    · subst h2; cases a.source <;> simp <;> grind
    cases a.source <;> simp [h1, h2] <;> grind

theorem lastValue_cons (p : Str × Str) (ps : List (Str × Str)) (k : Str) :
    lastValue (p :: ps) k = (lastValue ps k).or (if p.1 = k then some p.2 else none) := by
  unfold lastValue
  simp only [List.reverse_cons, List.find?_append, List.find?_cons, List.find?_nil]
  cases (ps.reverse.find? fun p => p.1 = k) with
  | some q => simp
  | none => by_cases h : p.1 = k <;> simp [h]

theorem putAll_field (get : DeriveArgs → Option Str) (key : Str)
    (hput : ∀ a k v, get (put a k v) = if k = key then some v else get a) : (pairs : List (Str × Str)) →
    (a : DeriveArgs) → get (putAll a pairs) = (lastValue pairs key).or (get a)
  | [], a => rfl
  | (k, v) :: rest, a => by
    rw [putAll, putAll_field get key hput rest, lastValue_cons, hput]
    cases lastValue rest key with
    | some w => rfl
    | none => by_cases h : k = key <;> simp [h]

theorem putAll_print : (pairs : List (Str × Str)) → (a : DeriveArgs) → (putAll a pairs).print =
    match lastValue pairs c!"print" with
    | none => a.print
    | some v => (Print.parse v).toOption.getD .none
  | [], a => rfl
  | (k, v) :: rest, a => by
    rw [putAll, putAll_print rest, lastValue_cons]
    cases lastValue rest c!"print" with
    | some w => rfl
    | none =>
      by_cases h : k = c!"print"
      · subst h; simp [put]
      · simp only [h, if_false, Option.none_or]; unfold put; repeat' split
        all_goals first | rfl | contradiction

theorem putAll_source : (pairs : List (Str × Str)) → (a : DeriveArgs) → CanPutAll a pairs →
    (∀ s, (putAll a pairs).source = some (.path s) ↔ a.source = some (.path s) ∨ (c!"path", s) ∈ pairs) ∧
    (∀ s, (putAll a pairs).source = some (.source s) ↔ a.source = some (.source s) ∨ (c!"source", s) ∈ pairs)
  | [], a, _ => by simp [putAll]
  | (k, v) :: rest, a, h => by
    obtain ⟨ih1, ih2⟩ := putAll_source rest (put a k v) h.2
    have hs := h.1.2.2
    rw [putAll]
    simp only [ih1, ih2, put_source, List.mem_cons, Prod.mk.injEq]
    by_cases h1 : k = c!"path"
    · subst h1; constructor <;> intro s <;> simp [hs (.inl rfl)] <;> grind
    by_cases h2 : k = c!"source"
    · subst h2; constructor <;> intro s <;> simp [hs (.inr rfl)] <;> grind
    simp [h1, h2, eq_comm (b := k)]

theorem says_putAll {pairs : List (Str × Str)} (hp : Proper pairs) : Says pairs (putAll .default pairs) := by
  have hc : CanPutAll .default pairs := (canPutAll_iff _ _).2 ⟨hp.known, hp.print, by simpa [DeriveArgs.default] using hp.one⟩
  obtain ⟨h1, h2⟩ := putAll_source pairs .default hc
  refine ⟨fun s => by rw [h1]; simp [DeriveArgs.default], fun s => by rw [h2]; simp [DeriveArgs.default], ?_, ?_, ?_, ?_,
    ?_, ?_, ?_⟩
  · rw [putAll_field (·.block) c!"block" (by intro a k v; unfold put; grind)]; simp [DeriveArgs.default]
  · rw [putAll_print]
    cases hl : lastValue pairs c!"print" with
    | none => rfl
    | some v =>
      dsimp only
      have hm : (c!"print", v) ∈ pairs := by
        unfold lastValue at hl
        cases hf : (pairs.reverse.find? fun p => p.1 = c!"print") with
        | none => rw [hf] at hl; simp at hl
        | some q =>
          rw [hf] at hl
          have := List.find?_some hf
          have h3 := List.mem_of_find?_eq_some hf
          simp only [Option.map_some, Option.some.injEq, decide_eq_true_eq] at hl this
          rw [← hl, ← this]; exact List.mem_reverse.1 h3
      obtain ⟨m, h3⟩ := hp.print _ hm rfl
      dsimp only at h3
      rw [(printModes_iff v m).2 h3]
      exact h3
  · rw [putAll_field (·.escaping) c!"escape" (by intro a k v; unfold put; grind)]; simp [DeriveArgs.default]
  · rw [putAll_field (·.ext) c!"ext" (by intro a k v; unfold put; grind)]; simp [DeriveArgs.default]
  · rw [putAll_field (·.syn) c!"syntax" (by intro a k v; unfold put; grind)]; simp [DeriveArgs.default]
  · rw [putAll_field (·.config) c!"config" (by intro a k v; unfold put; grind)]; simp [DeriveArgs.default]
  · rw [putAll_field (·.whitespace) c!"whitespace" (by intro a k v; unfold put; grind)]
    simp [DeriveArgs.default]

theorem says_unique {pairs : List (Str × Str)} {a b : DeriveArgs} (ha : Says pairs a) (hb : Says pairs b) : a = b := by
  have hs : a.source = b.source := by
    cases h1 : a.source with
    | none =>
      cases h2 : b.source with
      | none => rfl
      | some x =>
        cases x with
        | path s => rw [(ha.path s).2 ((hb.path s).1 h2)] at h1; simp at h1
        | source s => rw [(ha.source s).2 ((hb.source s).1 h2)] at h1; simp at h1
    | some x =>
      cases x with
      | path s => rw [(hb.path s).2 ((ha.path s).1 h1)]
      | source s => rw [(hb.source s).2 ((ha.source s).1 h1)]
  have hp : a.print = b.print := by
    have h1 := ha.print
    have h2 := hb.print
    cases hl : lastValue pairs c!"print" with
    | none => rw [hl] at h1 h2; exact h1.trans h2.symm
    | some v =>
      rw [hl] at h1 h2
      have := ((printModes_iff _ _).2 h1).symm.trans ((printModes_iff _ _).2 h2)
      simpa using this
  cases a; cases b
  simp only [DeriveArgs.mk.injEq]
  exact ⟨hs, ha.block.trans hb.block.symm, hp, ha.escape.trans hb.escape.symm, ha.ext.trans hb.ext.symm,
    ha.syn.trans hb.syn.symm, ha.config.trans hb.config.symm, ha.whitespace.trans hb.whitespace.symm⟩

/-- The arguments of the derive are accepted exactly if there is one `template(…)` attribute, if every argument is a
string for a known key, if `print` has one of its four values, and if there are not two of `path` and `source`. The
value of an argument is then the string that was given for its key, and if there are several, the last one. -/
theorem C62_arguments (attrs : List Attr) (a : DeriveArgs) :
    DeriveArgs.new attrs = .ok a ↔ ∃ pairs, Given attrs pairs ∧ Proper pairs ∧ Says pairs a := by
  unfold DeriveArgs.new
  simp only [bind, Except.bind]
  constructor
  · intro h
    cases hf : findTemplateAttr attrs none with
    | error e => rw [hf] at h; simp at h
    | ok r =>
      rw [hf] at h
      rcases (findTemplateAttr_iff _ _ _).1 hf with ⟨_, rfl⟩ | ⟨_, t, items, h1, h2, rfl⟩
      · simp at h
      · obtain ⟨pairs, h3, h4, h5⟩ := (readItems_iff _ _ _).1 h
        obtain ⟨k1, k2, k3⟩ := (canPutAll_iff _ _).1 h4
        have hp : Proper pairs := ⟨k1, k2, by simpa [DeriveArgs.default] using k3⟩
        exact ⟨pairs, ⟨t, items, h1, h2, h3⟩, hp, h5 ▸ says_putAll hp⟩
  · rintro ⟨pairs, ⟨t, items, h1, h2, h3⟩, hp, hs⟩
    rw [(findTemplateAttr_iff attrs none (some items)).2 (.inr ⟨rfl, t, items, h1, h2, rfl⟩)]
    exact (readItems_iff _ _ _).2 ⟨pairs, h3, (canPutAll_iff _ _).2 ⟨hp.known, hp.print, by
      simpa [DeriveArgs.default] using hp.one⟩, says_unique hs (says_putAll hp)⟩

theorem lastValue_iff : (pairs : List (Str × Str)) → (pairs.map (·.1)).Nodup → (k v : Str) →
    (lastValue pairs k = some v ↔ (k, v) ∈ pairs)
  | [], _, k, v => by simp [lastValue]
  | (k', v') :: rest, hn, k, v => by
    rw [List.map_cons, List.nodup_cons] at hn
    have ih := lastValue_iff rest hn.2 k
    rw [lastValue_cons]
    cases hl : lastValue rest k with
    | some w =>
      have hm : (k, w) ∈ rest := (ih w).1 hl
      have hne : k ≠ k' := fun e => hn.1 (List.mem_map.2 ⟨_, hm, e⟩)
      simp only [Option.some_or, List.mem_cons, Prod.mk.injEq, hne, false_and, false_or]
      rw [← hl]; exact ih v
    | none =>
      have hno : ∀ w, (k, w) ∉ rest := fun w hw => by have := (ih w).2 hw; rw [hl] at this; simp at this
      simp only [Option.none_or, List.mem_cons, Prod.mk.injEq, hno, or_false]
      by_cases h : k' = k
      · subst h; simp [eq_comm]
      · simp [h, Ne.symm h]

/-- The order of the arguments is irrelevant if no key is given twice. -/
theorem C62_order {attrs attrs' : List Attr} {pairs pairs' : List (Str × Str)} (h : Given attrs pairs)
    (h' : Given attrs' pairs') (hp : pairs.Perm pairs') (hk : (pairs.map (·.1)).Nodup) (a : DeriveArgs)
    (ha : DeriveArgs.new attrs = .ok a) : DeriveArgs.new attrs' = .ok a := by
  have perm : ∀ p, p ∈ pairs ↔ p ∈ pairs' := fun _ => hp.mem_iff
  have hk' : (pairs'.map (·.1)).Nodup := (hp.map _).nodup hk
  have hone := (hp.filter fun p => p.1 = c!"path" ∨ p.1 = c!"source").length_eq
  obtain ⟨ps, ⟨t, items, g1, g2, g3⟩, ok, hs⟩ := (C62_arguments _ _).1 ha
  obtain ⟨t', items', g1', g2', g3'⟩ := h
  rw [g1] at g1'; cases g1'
  rw [g2] at g2'; cases g2'
  have he : ps = pairs := by
    have := g3.symm.trans g3'
    exact (List.map_inj_right (fun _ _ => Option.some.inj)).1 this
  subst he
  have hl : ∀ k, lastValue pairs' k = lastValue ps k := by
    intro k
    cases h1 : lastValue pairs' k with
    | some v => exact ((lastValue_iff _ hk k v).2 ((perm _).2 ((lastValue_iff _ hk' k v).1 h1))).symm
    | none =>
      cases h2 : lastValue ps k with
      | none => rfl
      | some v => rw [(lastValue_iff _ hk' k v).2 ((perm _).1 ((lastValue_iff _ hk k v).1 h2))] at h1; simp at h1
  refine (C62_arguments _ _).2 ⟨pairs', h', ⟨fun p q => ok.known p ((perm p).2 q), fun p q => ok.print p ((perm p).2 q),
      hone ▸ ok.one⟩,
    fun s => by rw [hs.path, perm], fun s => by rw [hs.source, perm], ?_, ?_, ?_, ?_, ?_, ?_, ?_⟩ <;> rw [hl]
  · exact hs.block
  · exact hs.print
  · exact hs.escape
  · exact hs.ext
  · exact hs.syn
  · exact hs.config
  · exact hs.whitespace

/-- Every other form of the arguments is refused with a compile error, unless a key is a path of several names. -/
theorem C62_refused_partial (attrs : List Attr)
    (plain : ∀ a ∈ templateAttrs attrs, ∀ items, a.args = some items → ∀ i ∈ items, ∀ path v, i = .nameValue path v →
      path.length = 1)
    (h : ¬∃ pairs, Given attrs pairs ∧ Proper pairs) : DeriveArgs.new attrs = .error .err := by
  have hitem : ∀ (i : AttrItem) (a : DeriveArgs), (∀ path v, i = .nameValue path v → path.length = 1) →
      ∀ e, readItem a i = .error e → e = .err := by
    intro i a hi e he
    cases i with
    | other => simp only [readItem, Except.error.injEq] at he; exact he.symm
    | nameValue path v =>
      match path, hi path v rfl with
      | [k], _ =>
        have hset : ∀ l, a.set k l = .error e → e = .err := by
          intro l
          unfold DeriveArgs.set
          cases l with
          | str s =>
            simp only [AttrLit.string, bind, Except.bind, Print.parse, pure, Except.pure]
            repeat' split
            all_goals first | (intro h; cases h; rfl) | (intro h; cases h) | skip
            all_goals simp_all
            all_goals (rename_i hh; revert hh; repeat' split)
            all_goals grind
          | other =>
            simp only [AttrLit.string, bind, Except.bind]
            repeat' split
            all_goals (intro h; cases h; rfl)
        cases v <;> simp only [readItem, AttrValue.literal, bind, Except.bind] at he
        · exact hset _ he
        · exact hset _ he
        · cases he; rfl
        · cases he; rfl
  have hitems : ∀ (is : List AttrItem) (a : DeriveArgs), (∀ i ∈ is, ∀ path v, i = .nameValue path v → path.length = 1) →
      ∀ e, readItems is a = .error e → e = .err := by
    intro is
    induction is with
    | nil => intro a _ e he; simp [readItems] at he
    | cons i is ih =>
      intro a hi e he
      simp only [readItems, bind, Except.bind] at he
      cases h1 : readItem a i with
      | error e' => rw [h1] at he; cases he; exact hitem i a (hi i List.mem_cons_self) _ h1
      | ok b => rw [h1] at he; exact ih b (fun j hj => hi j (List.mem_cons_of_mem _ hj)) e he
  cases hr : DeriveArgs.new attrs with
  | ok a =>
    obtain ⟨pairs, h1, h2, _⟩ := (C62_arguments _ _).1 hr
    exact absurd ⟨pairs, h1, h2⟩ h
  | error e =>
    unfold DeriveArgs.new at hr
    simp only [bind, Except.bind] at hr
    cases hf : findTemplateAttr attrs none with
    | error e' =>
      rw [hf] at hr; cases hr
      have : ∀ (as : List Attr) f e', findTemplateAttr as f = .error e' → e' = .err := by
        intro as
        induction as with
        | nil => intro f e' h; simp [findTemplateAttr] at h
        | cons x xs ih =>
          intro f e' h
          rw [findTemplateAttr] at h
          repeat' split at h
          all_goals first | exact ih _ _ h | (cases h; rfl)
      rw [this _ _ _ hf]
    | ok r =>
      rw [hf] at hr
      rcases (findTemplateAttr_iff _ _ _).1 hf with ⟨_, rfl⟩ | ⟨_, t, items, h1, h2, rfl⟩
      · cases hr; rfl
      · rw [hitems items .default (plain t (by rw [h1]; exact List.mem_cons_self) items h2) e hr]

/-- A key with several names makes the macro panic, although it is an argument of an attribute like others. -/
theorem C62_false_panic : ∃ attrs, DeriveArgs.new attrs = .error .panic :=
  ⟨[⟨[c!"template"], some [.nameValue [c!"a", c!"path"] (.lit (.str c!"x.html"))]⟩], rfl⟩

/-- The configuration file: the one that the arguments name must be there; without `config` the default configuration is
used if there is no `askama.toml`. -/
theorem C62_config (P : Project) (ident : Str) (attrs : List Attr) (fuel : Nat) (a : DeriveArgs)
    (h : DeriveArgs.new attrs = .ok a) (hn : P.env.files.exist (configPath P a) = false) :
    (∀ f, a.config = some f → buildFromAttrs P ident attrs fuel = .error .err) ∧
    (a.config = none → readConfigFile P a.config = .ok [] ∧ rawConfig P [] = .ok ⟨none, none, none⟩) := by
  unfold configPath at hn
  constructor
  · intro f hf
    rw [hf] at hn
    have : readConfigFile P a.config = .error .err := by
      simp only [readConfigFile, hf]
      rw [if_neg (by simpa using hn)]
      rfl
    simp only [buildFromAttrs, bind, Except.bind, h, this]
  · intro hf
    rw [hf] at hn
    refine ⟨?_, rfl⟩
    simp only [readConfigFile, hf, configFileName]
    rw [if_neg (by simpa using hn)]
    rfl

/-- A key given twice is not refused. -/
theorem C62_twice : ∃ attrs a, DeriveArgs.new attrs = .ok a ∧ a.ext = some c!"txt" ∧
    Given attrs [(c!"path", c!"x"), (c!"ext", c!"html"), (c!"ext", c!"txt")] :=
  ⟨[⟨[c!"derive"], none⟩, ⟨[c!"template"], some [.nameValue [c!"path"] (.lit (.str c!"x")),
      .nameValue [c!"ext"] (.lit (.str c!"html")), .nameValue [c!"ext"] (.groupLit (.str c!"txt"))]⟩], _, rfl, rfl,
    _, _, rfl, rfl, rfl⟩

example : Proper [(c!"path", c!"x"), (c!"ext", c!"html"), (c!"print", c!"ast")] :=
  ⟨by decide, by intro p hp h; exact ⟨.ast, by revert h; revert p; decide⟩, by decide⟩

end Askama.Props
