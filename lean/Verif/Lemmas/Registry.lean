import Verif.Spec.Registry
import Verif.Lemmas.Decay
set_option autoImplicit false
namespace Rtti
open Spec
namespace Reg

/-- `customTypes()` called for its effect -/
def touch (r : Reg) : Reg := r.customTypes.getD r

theorem customTypes_eq (r : Reg) : r.customTypes = if r.types = .destroyed then none else some r.touch := by
  unfold touch customTypes
  cases r.types <;> rfl

@[simp] theorem touch_next (r : Reg) : r.touch.next = r.next := by
  unfold touch customTypes; cases r.types <;> rfl
@[simp] theorem touch_info (r : Reg) : r.touch.info = r.info := by
  unfold touch customTypes; cases r.types <;> rfl
@[simp] theorem touch_names (r : Reg) : r.touch.names = r.names := by
  unfold touch customTypes; cases r.types <;> rfl
@[simp] theorem touch_holders (r : Reg) : r.touch.holders = r.holders := by
  unfold touch customTypes; cases r.types <;> rfl
@[simp] theorem touch_items (r : Reg) : r.touch.items = r.items := by
  unfold touch customTypes; cases r.types <;> rfl
@[simp] theorem touch_convs (r : Reg) : r.touch.convs = r.convs := by
  unfold touch customTypes; cases r.types <;> rfl
@[simp] theorem touch_slots (r : Reg) : r.touch.slots = r.slots := by
  unfold touch customTypes; cases r.types <;> rfl
theorem touch_types (r : Reg) : r.touch.types = if r.types = .destroyed then .destroyed else .alive := by
  unfold touch customTypes
  cases h : r.types <;> simp [h]
theorem touch_destroyed {r : Reg} : r.touch.types = .destroyed ↔ r.types = .destroyed := by
  rw [touch_types]; split <;> simp_all
theorem touch_order (r : Reg) : r.touch.order = if r.types = .notYet then .types :: r.order else r.order := by
  unfold touch customTypes; cases r.types <;> rfl
theorem touch_of_alive {r : Reg} (h : r.types = .alive) : r.touch = r := by
  unfold touch customTypes; rw [h]; rfl
theorem touch_of_destroyed {r : Reg} (h : r.types = .destroyed) : r.touch = r := by
  unfold touch customTypes; rw [h]; rfl
@[simp] theorem touch_touch (r : Reg) : r.touch.touch = r.touch := by
  by_cases h : r.types = .destroyed
  · rw [touch_of_destroyed h, touch_of_destroyed h]
  · exact touch_of_alive (by rw [touch_types, if_neg h])

/-- the handle for an id -/
def hd (r : Reg) (id : Nat) : Nat := if r.types = .destroyed then 0 else id

@[simp] theorem hd_touch (r : Reg) (a : Nat) : r.touch.hd a = r.hd a := by
  unfold hd
  by_cases h : r.types = .destroyed
  · rw [if_pos h, if_pos (touch_destroyed.2 h)]
  · rw [if_neg h, if_neg (fun h' => h (touch_destroyed.1 h'))]

theorem ofId_eq (r : Reg) (a : Nat) : r.ofId a = (r.touch, r.hd a) := by
  unfold ofId hd
  rw [customTypes_eq]
  by_cases h : r.types = .destroyed
  · simp [h, touch_of_destroyed h]
  · simp [h]

theorem typeId_eq (r : Reg) (a : Nat) : r.typeId a = (r.touch, r.hd a) := ofId_eq r a

theorem ofName_eq (r : Reg) (n : Str) : r.ofName n = (r.touch, r.hd (r.getTypeInfo n)) := by
  unfold ofName hd
  rw [customTypes_eq]
  by_cases h : r.types = .destroyed
  · simp [h, touch_of_destroyed h]
  · simp [h, getTypeInfo]

/-- `customConverters()` called for its effect -/
def touchC (r : Reg) : Reg := r.customConverters.getD r

theorem customConverters_eq (r : Reg) :
    r.customConverters = if r.convs = .destroyed then none else some r.touchC := by
  unfold touchC customConverters
  cases r.convs <;> rfl

@[simp] theorem touchC_next (r : Reg) : r.touchC.next = r.next := by
  unfold touchC customConverters; cases r.convs <;> rfl
@[simp] theorem touchC_info (r : Reg) : r.touchC.info = r.info := by
  unfold touchC customConverters; cases r.convs <;> rfl
@[simp] theorem touchC_names (r : Reg) : r.touchC.names = r.names := by
  unfold touchC customConverters; cases r.convs <;> rfl
@[simp] theorem touchC_holders (r : Reg) : r.touchC.holders = r.holders := by
  unfold touchC customConverters; cases r.convs <;> rfl
@[simp] theorem touchC_items (r : Reg) : r.touchC.items = r.items := by
  unfold touchC customConverters; cases r.convs <;> rfl
@[simp] theorem touchC_types (r : Reg) : r.touchC.types = r.types := by
  unfold touchC customConverters; cases r.convs <;> rfl
@[simp] theorem touchC_slots (r : Reg) : r.touchC.slots = r.slots := by
  unfold touchC customConverters; cases r.convs <;> rfl
theorem touchC_convs (r : Reg) : r.touchC.convs = if r.convs = .destroyed then .destroyed else .alive := by
  unfold touchC customConverters
  cases h : r.convs <;> simp [h]
theorem touchC_order (r : Reg) : r.touchC.order = if r.convs = .notYet then .convs :: r.order else r.order := by
  unfold touchC customConverters; cases r.convs <;> rfl

/-! ### the invariant of every program -/

/-- nothing known about types is forgotten -/
structure Grows (r r' : Reg) : Prop where
  info : ∀ k i, r.info k = some i → r'.info k = some i
  names : ∀ n k, r.names n = some k → r'.names n = some k
  holders : ∀ T k, r.holders T = some k → r'.holders T = some k
  next : r.next ≤ r'.next
  dead : r'.types = .destroyed ↔ r.types = .destroyed

theorem Grows.refl (r : Reg) : Grows r r := ⟨fun _ _ => id, fun _ _ => id, fun _ _ => id, Nat.le_refl _, Iff.rfl⟩

theorem Grows.trans {a b c : Reg} (h : Grows a b) (h' : Grows b c) : Grows a c :=
  ⟨fun k i e => h'.info k i (h.info k i e), fun n k e => h'.names n k (h.names n k e),
   fun T k e => h'.holders T k (h.holders T k e), Nat.le_trans h.next h'.next, h'.dead.trans h.dead⟩

theorem Grows.touch (r : Reg) : Grows r r.touch :=
  ⟨by simp, by simp, by simp, by simp, touch_destroyed⟩

theorem Grows.touchC (r : Reg) : Grows r r.touchC := ⟨by simp, by simp, by simp, by simp, by simp⟩

/-- an id that may be used -/
def Good (r : Reg) (a : Nat) : Prop := a = 0 ∨ r.types = .destroyed ∨ ∃ i, r.info a = some i

theorem Good.mono {r r' : Reg} {a : Nat} (g : Grows r r') (h : r.Good a) : r'.Good a := by
  rcases h with h | h | ⟨i, h⟩
  · exact .inl h
  · exact .inr (.inl (g.dead.2 h))
  · exact .inr (.inr ⟨i, g.info _ _ h⟩)

/-- what is true in every state of a legal program; `sd`: static objects are being destroyed -/
structure Ok (sd : Bool) (r : Reg) : Prop where
  pos : 0 < r.next
  names : ∀ n k, r.names n = some k → ∃ i, r.info k = some i ∧ i.name = n
  info : ∀ k i, r.info k = some i → r.names i.name = some k ∧ 0 < k ∧ k < r.next ∧ i.name ≠ [] ∧
    ∃ j, r.info i.decay = some j
  holders : ∀ T k, r.holders T = some k → isVoid T = false ∧ r.Good k
  items : ∀ k s, r.items k = some s → r.convs = .alive ∧ (∃ fn, r.slots s = .live fn) ∧
    ∃ a b i j, r.holders ⟨.none, s.src⟩ = some a ∧ r.holders ⟨.none, s.dst⟩ = some b ∧
      r.info a = some i ∧ r.info b = some j ∧ k = (i.decay, j.decay)
  oTypes : Static.types ∈ r.order ↔ r.types = .alive
  oConvs : Static.convs ∈ r.order ↔ r.convs = .alive
  afterTypes : ∀ l l', r.order = l ++ .types :: l' → .types ∉ l' ∧ .convs ∉ l'
  afterConvs : ∀ l l', r.order = l ++ .convs :: l' → .convs ∉ l' ∧ .types ∈ l'
  noDead : sd = false → ∀ s, r.slots s ≠ .dead
  phases : sd = false → r.types ≠ .destroyed ∧ r.convs ≠ .destroyed

theorem Ok.init : Ok false init where
  pos := Nat.zero_lt_one
  names := by intro n k h; cases h
  info := by intro n k h; cases h
  holders := by intro n k h; cases h
  items := by intro n k h; cases h
  oTypes := by simp [Reg.init]
  oConvs := by simp [Reg.init]
  afterTypes := by intro l l' h; simp [Reg.init] at h
  afterConvs := by intro l l' h; simp [Reg.init] at h
  noDead := by simp [Reg.init]
  phases := by simp [Reg.init]

theorem Ok.convs_types {sd : Bool} {r : Reg} (h : r.Ok sd) (hc : r.convs = .alive) : r.types = .alive := by
  have := h.oConvs.2 hc
  obtain ⟨l, l', e⟩ := List.append_of_mem this
  rw [← h.oTypes, e]
  exact List.mem_append_right _ (List.mem_cons_of_mem _ (h.afterConvs _ _ e).2)

theorem Ok.info_pos {sd : Bool} {r : Reg} (h : r.Ok sd) : r.info 0 = none := by
  cases e : r.info 0 with
  | none => rfl
  | some i => exact absurd (h.info 0 i e).2.1 (by omega)

theorem split_cons {A : Type} {x y : A} {o l l' : List A} (h : x :: o = l ++ y :: l') :
    (l = [] ∧ x = y ∧ l' = o) ∨ ∃ m, o = m ++ y :: l' := by
  cases l with
  | nil => simp at h; exact .inl ⟨rfl, h.1, h.2.symm⟩
  | cons z l => simp at h; exact .inr ⟨l, h.2⟩

theorem Good.congr {r r' : Reg} {a : Nat} (h : r.Good a) (hi : r'.info = r.info)
    (ht : r.types = .destroyed → r'.types = .destroyed) : r'.Good a := by
  rcases h with h | h | ⟨i, h⟩
  · exact .inl h
  · exact .inr (.inl (ht h))
  · exact .inr (.inr ⟨i, by rw [hi]; exact h⟩)

theorem Ok.touch {sd : Bool} {r : Reg} (h : r.Ok sd) : r.touch.Ok sd := by
  by_cases hn : r.types = .notYet
  · have ho : r.touch.order = .types :: r.order := by rw [touch_order, if_pos hn]
    have ht : r.touch.types = .alive := by rw [touch_types, if_neg (by rw [hn]; decide)]
    have n1 : Static.types ∉ r.order := by rw [h.oTypes, hn]; decide
    have n2 : Static.convs ∉ r.order := by
      rw [h.oConvs]; intro hc; rw [h.convs_types hc] at hn; cases hn
    refine ⟨by simpa using h.pos, ?_, ?_, ?_, ?_, ?_, ?_, ?_, ?_, ?_, ?_⟩
    · simpa using h.names
    · simpa using h.info
    · intro T k e
      have := h.holders T k (by simpa using e)
      exact ⟨this.1, this.2.mono (Grows.touch r)⟩
    · simpa using h.items
    · simp [ho, ht]
    · simp only [ho, touch_convs]
      simpa using h.oConvs
    · intro l l' e
      rw [ho] at e
      rcases split_cons e with ⟨_, _, e⟩ | ⟨m, e⟩
      · rw [e]; exact ⟨n1, n2⟩
      · exact h.afterTypes _ _ e
    · intro l l' e
      rw [ho] at e
      rcases split_cons e with ⟨_, e, _⟩ | ⟨m, e⟩
      · cases e
      · exact h.afterConvs _ _ e
    · simpa using h.noDead
    · intro hs; rw [ht]; simpa using (h.phases hs).2
  · cases hp : r.types with
    | notYet => exact absurd hp hn
    | alive => rw [touch_of_alive hp]; exact h
    | destroyed => rw [touch_of_destroyed hp]; exact h

theorem Ok.touchC {sd : Bool} {r : Reg} (h : r.Ok sd) (ha : r.types = .alive) : r.touchC.Ok sd := by
  by_cases hn : r.convs = .notYet
  · have ho : r.touchC.order = .convs :: r.order := by rw [touchC_order, if_pos hn]
    have ht : r.touchC.convs = .alive := by rw [touchC_convs, if_neg (by rw [hn]; decide)]
    have n2 : Static.convs ∉ r.order := by rw [h.oConvs, hn]; decide
    refine ⟨by simpa using h.pos, ?_, ?_, ?_, ?_, ?_, ?_, ?_, ?_, ?_, ?_⟩
    · simpa using h.names
    · simpa using h.info
    · intro T k e
      have := h.holders T k (by simpa using e)
      exact ⟨this.1, this.2.mono (Grows.touchC r)⟩
    · intro k s e
      have := h.items k s (by simpa using e)
      rw [hn] at this; cases this.1
    · simp only [ho, touchC_types]
      simpa using h.oTypes
    · simp [ho, ht]
    · intro l l' e
      rw [ho] at e
      rcases split_cons e with ⟨_, e, _⟩ | ⟨m, e⟩
      · cases e
      · exact h.afterTypes _ _ e
    · intro l l' e
      rw [ho] at e
      rcases split_cons e with ⟨_, _, e⟩ | ⟨m, e⟩
      · rw [e]; exact ⟨n2, h.oTypes.2 ha⟩
      · exact h.afterConvs _ _ e
    · simpa using h.noDead
    · intro hs; rw [ht]; simpa using (h.phases hs).1
  · have : r.touchC = r := by
      unfold Reg.touchC customConverters
      cases hp : r.convs with
      | notYet => exact absurd hp hn
      | _ => rfl
    rw [this]; exact h

/-! ### registration -/

theorem addTypeInfo_ok {sd : Bool} {r : Reg} {n : Str} {d : Desc} {c : Nat} (h : r.Ok sd)
    (ha : r.types = .alive) (hc : r.Good c) :
    (r.addTypeInfo n d c).1.Ok sd ∧ Grows r (r.addTypeInfo n d c).1 ∧
    (r.addTypeInfo n d c).1.Good (r.addTypeInfo n d c).2 := by
  unfold addTypeInfo
  split
  · exact ⟨h, .refl r, .inl rfl⟩
  · rename_i hn
    split
    · rename_i k hk
      obtain ⟨i, hi, _⟩ := h.names n k hk
      exact ⟨h, .refl r, .inr (.inr ⟨i, hi⟩)⟩
    · rename_i hk
      have fresh : r.info r.next = none := by
        cases e : r.info r.next with
        | none => rfl
        | some i => exact absurd (h.info _ i e).2.2.1 (by omega)
      have old : ∀ k i, r.info k = some i → k ≠ r.next := by
        intro k i e e'; rw [e', fresh] at e; cases e
      generalize hi0 : (⟨n, d, if c = 0 then r.next else c⟩ : Info) = i0
      have g : Grows r { r with next := r.next + 1, info := upd r.info r.next (some i0),
                                names := upd r.names n (some r.next) } := by
        refine ⟨?_, ?_, fun _ _ => id, by simp, Iff.rfl⟩
        · intro k i e
          simp [upd, old k i e, e]
        · intro m k e
          have : m ≠ n := by rintro rfl; rw [hk] at e; cases e
          simp [upd, this, e]
      have n0 : i0.name = n := by rw [← hi0]
      refine ⟨⟨Nat.succ_pos _, ?_, ?_, ?_, ?_, h.oTypes, h.oConvs, h.afterTypes, h.afterConvs, h.noDead,
        h.phases⟩, g, .inr (.inr ⟨i0, by simp [upd]⟩)⟩
      · intro m k e
        by_cases hm : m = n
        · subst hm
          simp [upd] at e
          exact ⟨i0, by simp [upd, e], n0⟩
        · simp [upd, hm] at e
          obtain ⟨i, hi, e'⟩ := h.names m k e
          exact ⟨i, g.info _ _ hi, e'⟩
      · intro k i e
        by_cases hkn : k = r.next
        · subst hkn
          simp [upd] at e
          subst e
          refine ⟨by simp [upd, n0], h.pos, by simp, by rw [n0]; exact hn, ?_⟩
          rcases hc with hc | hc | ⟨j, hc⟩
          · exact ⟨i0, by simp [upd, ← hi0, hc]⟩
          · rw [ha] at hc; cases hc
          · have hc0 : c ≠ 0 := by rintro rfl; rw [h.info_pos] at hc; cases hc
            refine ⟨j, g.info _ _ ?_⟩
            rw [← hi0]; simpa [hc0] using hc
        · simp [upd, hkn] at e
          obtain ⟨h1, h2, h3, h4, j, h5⟩ := h.info k i e
          exact ⟨g.names _ _ h1, h2, by simp; omega, h4, j, g.info _ _ h5⟩
      · intro T k e
        have := h.holders T k e
        exact ⟨this.1, this.2.mono g⟩
      · intro k s e
        obtain ⟨h1, h2, a, b, i, j, h3, h4, h5, h6, h7⟩ := h.items k s e
        exact ⟨h1, h2, a, b, i, j, h3, h4, g.info _ _ h5, g.info _ _ h6, h7⟩

theorem registerMetaType_eq (r : Reg) (n : Str) (d : Desc) (c : Nat) :
    r.registerMetaType n d c = if r.types = .destroyed then (r, 0) else r.touch.addTypeInfo n d c := by
  unfold registerMetaType
  rw [customTypes_eq]
  by_cases h : r.types = .destroyed <;> simp [h]

theorem registerMetaType_ok {sd : Bool} {r : Reg} {n : Str} {d : Desc} {c : Nat} (h : r.Ok sd) (hc : r.Good c) :
    (r.registerMetaType n d c).1.Ok sd ∧ Grows r (r.registerMetaType n d c).1 ∧
    (r.registerMetaType n d c).1.Good (r.registerMetaType n d c).2 := by
  rw [registerMetaType_eq]
  by_cases hd : r.types = .destroyed
  · simp only [hd, if_true]
    exact ⟨h, .refl r, .inl rfl⟩
  · simp only [hd, if_false]
    obtain ⟨h1, h2, h3⟩ := addTypeInfo_ok (n := n) (d := d) h.touch (by rw [touch_types, if_neg hd])
      (hc.mono (Grows.touch r))
    exact ⟨h1, (Grows.touch r).trans h2, h3⟩

theorem addTypeInfo_rest (r : Reg) (n : Str) (d : Desc) (c : Nat) :
    (r.addTypeInfo n d c).1.holders = r.holders ∧ (r.addTypeInfo n d c).1.items = r.items ∧
    (r.addTypeInfo n d c).1.slots = r.slots ∧ (r.addTypeInfo n d c).1.convs = r.convs := by
  unfold addTypeInfo
  split
  · simp
  · split <;> simp

theorem registerMetaType_rest (r : Reg) (n : Str) (d : Desc) (c : Nat) :
    (r.registerMetaType n d c).1.holders = r.holders ∧ (r.registerMetaType n d c).1.items = r.items ∧
    (r.registerMetaType n d c).1.slots = r.slots ∧ (r.registerMetaType n d c).1.convs = r.convs := by
  rw [registerMetaType_eq]
  split
  · simp
  · simpa using addTypeInfo_rest r.touch n d c

theorem initHolder_ok {nm : RType → Str} {sd : Bool} {r : Reg} {T : RType} {c : Nat} (h : r.Ok sd)
    (hv : isVoid T = false) (hT : r.holders T = none) (hc : r.Good c) :
    (r.initHolder nm T c).1.Ok sd ∧ Grows r (r.initHolder nm T c).1 ∧
    (r.initHolder nm T c).1.Good (r.initHolder nm T c).2 ∧
    (r.initHolder nm T c).1.holders = upd r.holders T (some (r.initHolder nm T c).2) := by
  obtain ⟨h1, h2, h3⟩ := registerMetaType_ok (n := nm T) (d := describe T) h hc
  have hr := (registerMetaType_rest r (nm T) (describe T) c).1
  unfold initHolder
  generalize r.registerMetaType (nm T) (describe T) c = p at *
  have g : Grows p.1 { p.1 with holders := upd p.1.holders T (some p.2) } := by
    refine ⟨fun _ _ => id, fun _ _ => id, ?_, Nat.le_refl _, Iff.rfl⟩
    intro S k e
    have : S ≠ T := by rintro rfl; rw [hr, hT] at e; cases e
    simp [upd, this, e]
  refine ⟨⟨h1.pos, h1.names, h1.info, ?_, ?_, h1.oTypes, h1.oConvs, h1.afterTypes, h1.afterConvs, h1.noDead,
    h1.phases⟩, h2.trans g, h3.mono g, by simp [hr]⟩
  · intro S k e
    by_cases hS : S = T
    · subst hS
      simp [upd] at e
      subst e
      exact ⟨hv, h3.mono g⟩
    · simp [upd, hS] at e
      have := h1.holders S k e
      exact ⟨this.1, this.2.mono g⟩
  · intro k s e
    obtain ⟨h1, h2, a, b, i, j, h3, h4, h5, h6, h7⟩ := h1.items k s e
    exact ⟨h1, h2, a, b, i, j, g.holders _ _ h3, g.holders _ _ h4, h5, h6, h7⟩

theorem initHolder_rest (nm : RType → Str) (r : Reg) (T : RType) (c : Nat) :
    (r.initHolder nm T c).1.items = r.items ∧ (r.initHolder nm T c).1.slots = r.slots ∧
    (r.initHolder nm T c).1.convs = r.convs := by
  have := registerMetaType_rest r (nm T) (describe T) c
  exact this.2

structure IdOk (r : Reg) (T : RType) (p : Reg × Nat) : Prop where
  grows : Grows r p.1
  good : p.1.Good p.2
  void : isVoid T = true → p.2 = 0
  held : isVoid T = false → p.1.holders T = some p.2
  items : p.1.items = r.items
  slots : p.1.slots = r.slots
  convs : p.1.convs = r.convs

theorem metaTypeIdDecayed_ok {nm : RType → Str} {sd : Bool} {r : Reg} {T : RType} (h : r.Ok sd) :
    (r.metaTypeIdDecayed nm T).1.Ok sd ∧ IdOk r T (r.metaTypeIdDecayed nm T) := by
  unfold metaTypeIdDecayed
  split
  · rename_i hv
    exact ⟨h, .refl r, .inl rfl, fun _ => rfl, by simp [hv], rfl, rfl, rfl⟩
  · rename_i hv
    have hv : isVoid T = false := by simpa using hv
    split
    · rename_i k hk
      exact ⟨h, .refl r, (h.holders T k hk).2, by simp [hv], fun _ => hk, rfl, rfl, rfl⟩
    · rename_i hk
      obtain ⟨h1, h2, h3, h4⟩ := initHolder_ok (nm := nm) h hv hk (.inl rfl)
      have := initHolder_rest nm r T 0
      exact ⟨h1, h2, h3, by simp [hv], fun _ => by rw [h4]; simp [upd], this.1, this.2.1, this.2.2⟩

theorem metaTypeIdDecayed_holders {nm : RType → Str} {r : Reg} {T S : RType} (hS : S ≠ T) :
    (r.metaTypeIdDecayed nm T).1.holders S = r.holders S := by
  unfold metaTypeIdDecayed
  split
  · rfl
  · split
    · rfl
    · unfold initHolder
      simp [upd, hS, (registerMetaType_rest r (nm T) (describe T) 0).1]

theorem metaTypeId_ok {nm : RType → Str} {sd : Bool} {r : Reg} {T : RType} (h : r.Ok sd) :
    (r.metaTypeId nm T).1.Ok sd ∧ IdOk r T (r.metaTypeId nm T) := by
  unfold metaTypeId
  split
  · rename_i hv
    exact ⟨h, .refl r, .inl rfl, fun _ => rfl, by simp [hv], rfl, rfl, rfl⟩
  · rename_i hv
    have hv : isVoid T = false := by simpa using hv
    split
    · rename_i k hk
      exact ⟨h, .refl r, (h.holders T k hk).2, by simp [hv], fun _ => hk, rfl, rfl, rfl⟩
    · rename_i hk
      dsimp only
      split
      · obtain ⟨h1, h2, h3, h4⟩ := initHolder_ok (nm := nm) h hv hk (.inl rfl)
        have := initHolder_rest nm r T 0
        exact ⟨h1, h2, h3, by simp [hv], fun _ => by rw [h4]; simp [upd], this.1, this.2.1, this.2.2⟩
      · rename_i hD
        obtain ⟨h1, h2⟩ := metaTypeIdDecayed_ok (nm := nm) (T := ⟨.none, T.t.fullDecay⟩) h
        have hk' := (metaTypeIdDecayed_holders (nm := nm) (r := r) hD).trans hk
        generalize r.metaTypeIdDecayed nm ⟨.none, T.t.fullDecay⟩ = p at *
        obtain ⟨h3, h4, h5, h6⟩ := initHolder_ok (nm := nm) h1 hv hk' h2.good
        have := initHolder_rest nm p.1 T p.2
        exact ⟨h3, h2.grows.trans h4, h5, by simp [hv], fun _ => by rw [h6]; simp [upd],
          this.1.trans h2.items, this.2.1.trans h2.slots, this.2.2.trans h2.convs⟩

/-! ### converter calls -/

theorem deref_good {r : Reg} {a : Nat} (ha : r.types = .alive) (hg : r.Good a)
    (h0 : a ≠ 0) : ∃ i, r.deref a = .val i ∧ r.info a = some i := by
  rcases hg with hg | hg | ⟨i, hg⟩
  · exact absurd hg h0
  · rw [ha] at hg; cases hg
  · exact ⟨i, by simp [deref, hg], hg⟩

/-- the common part of the converter functions -/
theorem withList_ok {A : Type} {r : Reg} {a b : Nat} (dflt : A)
    (f : Reg → Nat × Nat → Res (Reg × A)) (ga : r.Good a) (gb : r.Good b) :
    (r.touch.withList (r.hd a) (r.hd b) dflt f = .val (r.touch, dflt) ∧
      (a = 0 ∨ b = 0 ∨ r.types = .destroyed ∨ r.convs = .destroyed)) ∨
    ∃ i j, r.info a = some i ∧ r.info b = some j ∧ a ≠ 0 ∧ b ≠ 0 ∧ r.types ≠ .destroyed ∧ r.convs ≠ .destroyed ∧
      r.touch.withList (r.hd a) (r.hd b) dflt f = f r.touch.touchC (i.decay, j.decay) := by
  unfold withList
  by_cases hd : r.types = .destroyed
  · left; simp [Reg.hd, hd]
  by_cases h0 : a = 0 ∨ b = 0
  · left; simp [Reg.hd, hd, h0]; rcases h0 with h0 | h0 <;> simp [h0]
  by_cases hc : r.convs = .destroyed
  · left; simp [Reg.hd, hd, h0, customConverters_eq, hc]
  have ht : r.touch.types = .alive := by rw [touch_types, if_neg hd]
  have h0' : a ≠ 0 ∧ b ≠ 0 := by simpa using h0
  obtain ⟨i, e1, i1⟩ := deref_good ht (ga.mono (Grows.touch r)) h0'.1
  obtain ⟨j, e2, i2⟩ := deref_good ht (gb.mono (Grows.touch r)) h0'.2
  have e1' : r.touch.touchC.deref a = .val i := by simpa [deref] using e1
  have e2' : r.touch.touchC.deref b = .val j := by simpa [deref] using e2
  right
  refine ⟨i, j, by simpa using i1, by simpa using i2, h0'.1, h0'.2, hd, hc, ?_⟩
  simp [Reg.hd, hd, h0, customConverters_eq, hc, key, e1', e2', Res.bind]

theorem withList_eq {A : Type} {r : Reg} {a b : Nat} (dflt : A) (f : Reg → Nat × Nat → Res (Reg × A)) :
    ((r.ofId a).1.ofId b).1.withList (r.ofId a).2 ((r.ofId a).1.ofId b).2 dflt f =
      r.touch.withList (r.hd a) (r.hd b) dflt f := by
  simp [ofId_eq]

theorem Ok.touch2 {sd : Bool} {r : Reg} (h : r.Ok sd) (hd : r.types ≠ .destroyed) :
    r.touch.touchC.Ok sd ∧ Grows r r.touch.touchC :=
  ⟨h.touch.touchC (by rw [touch_types, if_neg hd]), (Grows.touch r).trans (Grows.touchC _)⟩

theorem hasConverter_ok {sd : Bool} {r : Reg} {a b : Nat} (h : r.Ok sd) (ga : r.Good a) (gb : r.Good b) :
    ∃ r' o, r.hasConverter a b = .val (r', o) ∧ r'.Ok sd ∧ Grows r r' := by
  unfold hasConverter hasConverterH
  dsimp only
  rw [withList_eq]
  rcases withList_ok false (fun r k => .val (r, (r.items k).isSome)) ga gb with
    ⟨e, _⟩ | ⟨i, j, _, _, _, _, hd, _, e⟩
  · exact ⟨_, _, e, h.touch, Grows.touch r⟩
  · exact ⟨_, _, e, h.touch2 hd⟩

theorem convert_ok {sd : Bool} {r : Reg} {a b : Nat} (h : r.Ok sd) (ga : r.Good a) (gb : r.Good b) :
    ∃ r' o, r.convert a b = .val (r', o) ∧ r'.Ok sd ∧ Grows r r' := by
  unfold convert convertH
  dsimp only
  rw [withList_eq]
  rcases withList_ok none _ ga gb with ⟨e, _⟩ | ⟨i, j, _, _, _, _, hd, _, e⟩
  · exact ⟨_, _, e, h.touch, Grows.touch r⟩
  · rw [e]
    simp only [touchC_items, touch_items, touchC_slots, touch_slots]
    cases hi : r.items (i.decay, j.decay) with
    | none => exact ⟨_, _, rfl, h.touch2 hd⟩
    | some s =>
      obtain ⟨_, ⟨fn, hs⟩, _⟩ := h.items _ s hi
      simp only [hs]
      exact ⟨_, _, rfl, h.touch2 hd⟩

theorem unregister_ok {sd : Bool} {r : Reg} {a b : Nat} (h : r.Ok sd) (ga : r.Good a) (gb : r.Good b) :
    ∃ r', r.unregisterConverter a b = .val (r', ()) ∧ r'.Ok sd ∧ Grows r r' ∧ r'.slots = r.slots ∧
      (∀ k s, r'.items k = some s → r.items k = some s) ∧
      (∀ i j, r.info a = some i → r.info b = some j → r.types ≠ .destroyed →
        r'.items (i.decay, j.decay) = none) := by
  unfold unregisterConverter
  dsimp only
  rw [withList_eq]
  rcases withList_ok () _ ga gb with ⟨e, e'⟩ | ⟨i, j, h1, h2, _, _, hd, _, e⟩
  · refine ⟨_, e, h.touch, Grows.touch r, by simp, by simp, ?_⟩
    intro i j hi hj hd
    rcases e' with rfl | rfl | e' | e'
    · rw [h.info_pos] at hi; cases hi
    · rw [h.info_pos] at hj; cases hj
    · exact absurd e' hd
    · simp only [touch_items]
      cases hs : r.items (i.decay, j.decay) with
      | none => rfl
      | some s => rw [(h.items _ s hs).1] at e'; cases e'
  · obtain ⟨o, g⟩ := h.touch2 hd
    refine ⟨_, e, ⟨o.pos, o.names, o.info, o.holders, ?_, o.oTypes, o.oConvs, o.afterTypes, o.afterConvs, o.noDead,
      o.phases⟩, ⟨g.info, g.names, g.holders, g.next, g.dead⟩, by simp, ?_, ?_⟩
    · intro k s hs
      simp only [upd] at hs
      split at hs
      · cases hs
      · exact o.items k s hs
    · intro k s hs
      simp only [upd] at hs
      split at hs
      · cases hs
      · simpa using hs
    · intro i' j' hi hj _
      rw [h1] at hi; rw [h2] at hj
      cases hi; cases hj
      simp [upd]

theorem useSlot_ok {sd : Bool} {r : Reg} {s : Slot} {fn : Nat} (h : r.Ok sd) (hd : r.slots s ≠ .dead) :
    (r.useSlot s fn).Ok sd ∧ Grows r (r.useSlot s fn) ∧ ∃ f, (r.useSlot s fn).slots s = .live f := by
  unfold useSlot
  cases hs : r.slots s with
  | dead => exact absurd hs hd
  | live f => exact ⟨h, .refl r, f, hs⟩
  | none =>
    refine ⟨⟨h.pos, h.names, h.info, h.holders, ?_, ?_, ?_, ?_, ?_, ?_, h.phases⟩,
      ⟨fun _ _ => id, fun _ _ => id, fun _ _ => id, Nat.le_refl _, Iff.rfl⟩, fn, by simp [upd]⟩
    · intro k s' e
      obtain ⟨h1, ⟨f, h2⟩, h3⟩ := h.items k s' e
      refine ⟨h1, ⟨f, ?_⟩, h3⟩
      have : s' ≠ s := by rintro rfl; rw [hs] at h2; cases h2
      simp [upd, this, h2]
    · simpa using h.oTypes
    · simpa using h.oConvs
    · intro l l' e
      rcases split_cons e with ⟨_, e, _⟩ | ⟨m, e⟩
      · cases e
      · exact h.afterTypes _ _ e
    · intro l l' e
      rcases split_cons e with ⟨_, e, _⟩ | ⟨m, e⟩
      · cases e
      · exact h.afterConvs _ _ e
    · intro hsd s'
      simp only [upd]
      split
      · simp
      · exact h.noDead hsd s'

theorem useSlot_types (r : Reg) (s : Slot) (fn : Nat) : (r.useSlot s fn).types = r.types := by
  unfold useSlot; split <;> rfl
theorem useSlot_items (r : Reg) (s : Slot) (fn : Nat) : (r.useSlot s fn).items = r.items := by
  unfold useSlot; split <;> rfl
theorem useSlot_convs (r : Reg) (s : Slot) (fn : Nat) : (r.useSlot s fn).convs = r.convs := by
  unfold useSlot; split <;> rfl
theorem useSlot_holders (r : Reg) (s : Slot) (fn : Nat) : (r.useSlot s fn).holders = r.holders := by
  unfold useSlot; split <;> rfl

theorem register_ok {sd : Bool} {r : Reg} {a b : Nat} {s : Slot} (h : r.Ok sd)
    (ha : a ≠ 0 → r.holders ⟨.none, s.src⟩ = some a) (hb : b ≠ 0 → r.holders ⟨.none, s.dst⟩ = some b)
    (ga : r.Good a) (gb : r.Good b) (hl : ∃ fn, r.slots s = .live fn) :
    ∃ r' o, r.registerConverter a b s = .val (r', o) ∧ r'.Ok sd ∧ Grows r r' := by
  unfold registerConverter
  dsimp only
  rw [withList_eq]
  rcases withList_ok false _ ga gb with ⟨e, _⟩ | ⟨i, j, h1, h2, a0, b0, hd, hc, e⟩
  · exact ⟨_, _, e, h.touch, Grows.touch r⟩
  · rw [e]
    obtain ⟨o, g⟩ := h.touch2 hd
    split
    · exact ⟨_, _, rfl, o, g⟩
    · refine ⟨_, _, rfl, ⟨o.pos, o.names, o.info, o.holders, ?_, o.oTypes, o.oConvs, o.afterTypes, o.afterConvs,
        o.noDead, o.phases⟩, ⟨g.info, g.names, g.holders, g.next, g.dead⟩⟩
      intro k s' hs
      simp only [upd] at hs
      split at hs
      · rename_i hk
        cases hs
        subst hk
        refine ⟨?_, by simpa using hl, a, b, i, j, g.holders _ _ (ha a0), g.holders _ _ (hb b0), g.info _ _ h1,
          g.info _ _ h2, rfl⟩
        rw [touchC_convs, touch_convs, if_neg hc]
      · exact o.items k s' hs

theorem registerT_ok {nm : RType → Str} {sd : Bool} {r : Reg} {S T : RType} {f fn : Nat} (h : r.Ok sd)
    (hd : r.slots (slotOf S T f) ≠ .dead) :
    ∃ r' o, r.registerConverterT nm S T f fn = .val (r', o) ∧ r'.Ok sd ∧ Grows r r' := by
  unfold registerConverterT
  dsimp only
  obtain ⟨h1, g1, hl⟩ := useSlot_ok (fn := fn) h hd
  generalize r.useSlot (slotOf S T f) fn = r1 at *
  obtain ⟨h2, i2⟩ := metaTypeId_ok (nm := nm) (T := ⟨.none, S.t.fullDecay⟩) h1
  generalize r1.metaTypeId nm ⟨.none, S.t.fullDecay⟩ = p at *
  obtain ⟨h3, i3⟩ := metaTypeId_ok (nm := nm) (T := ⟨.none, T.t.fullDecay⟩) h2
  generalize p.1.metaTypeId nm ⟨.none, T.t.fullDecay⟩ = q at *
  have nz : ∀ {r : Reg} {T : RType} {p : Reg × Nat}, IdOk r T p → p.2 ≠ 0 → p.1.holders T = some p.2 := by
    intro r T p i hp
    cases hv : isVoid T with
    | true => exact absurd (i.void hv) hp
    | false => exact i.held hv
  obtain ⟨r', o, e, h4, g4⟩ := register_ok (s := slotOf S T f) h3
    (fun hp => i3.grows.holders _ _ (nz i2 hp)) (nz i3) (i2.good.mono i3.grows) i3.good
    (by rw [i3.slots, i2.slots]; exact hl)
  exact ⟨r', o, e, h4, g1.trans (i2.grows.trans (i3.grows.trans g4))⟩

theorem hasT_ok {nm : RType → Str} {sd : Bool} {r : Reg} {S T : RType} (h : r.Ok sd) :
    ∃ r' o, r.hasConverterT nm S T = .val (r', o) ∧ r'.Ok sd ∧ Grows r r' := by
  unfold hasConverterT
  dsimp only
  obtain ⟨h2, i2⟩ := metaTypeId_ok (nm := nm) (T := S) h
  generalize r.metaTypeId nm S = p at *
  obtain ⟨h3, i3⟩ := metaTypeId_ok (nm := nm) (T := T) h2
  generalize p.1.metaTypeId nm T = q at *
  obtain ⟨r', o, e, h4, g4⟩ := hasConverter_ok h3 (i2.good.mono i3.grows) i3.good
  exact ⟨r', o, e, h4, i2.grows.trans (i3.grows.trans g4)⟩

theorem convertT_ok {nm : RType → Str} {sd : Bool} {r : Reg} {S T : RType} (h : r.Ok sd) :
    ∃ r' o, r.convertT nm S T = .val (r', o) ∧ r'.Ok sd ∧ Grows r r' := by
  unfold Reg.convertT
  dsimp only
  obtain ⟨h2, i2⟩ := metaTypeId_ok (nm := nm) (T := S) h
  generalize r.metaTypeId nm S = p at *
  obtain ⟨h3, i3⟩ := metaTypeId_ok (nm := nm) (T := T) h2
  generalize p.1.metaTypeId nm T = q at *
  obtain ⟨r', o, e, h4, g4⟩ := convert_ok h3 (i2.good.mono i3.grows) i3.good
  exact ⟨r', o, e, h4, i2.grows.trans (i3.grows.trans g4)⟩

theorem unregT_ok {nm : RType → Str} {sd : Bool} {r : Reg} {S T : RType} (h : r.Ok sd) :
    ∃ r', r.unregisterConverterT nm S T = .val (r', ()) ∧ r'.Ok sd ∧ Grows r r' ∧ r'.slots = r.slots ∧
      (∀ k s, r'.items k = some s → r.items k = some s) ∧
      (∀ a b i j, r.holders S = some a → r.holders T = some b → r.info a = some i → r.info b = some j →
        r.types ≠ .destroyed → r'.items (i.decay, j.decay) = none) := by
  unfold unregisterConverterT
  dsimp only
  obtain ⟨h2, i2⟩ := metaTypeId_ok (nm := nm) (T := S) h
  have hS : ∀ a, r.holders S = some a → (r.metaTypeId nm S).2 = a := by
    intro a ha
    have hv := (h.holders S a ha).1
    have h1 := i2.held hv
    rw [i2.grows.holders _ _ ha] at h1
    cases h1; rfl
  generalize r.metaTypeId nm S = p at *
  obtain ⟨h3, i3⟩ := metaTypeId_ok (nm := nm) (T := T) h2
  have hT : ∀ a, r.holders T = some a → (p.1.metaTypeId nm T).2 = a := by
    intro a ha
    have hv := (h.holders T a ha).1
    have h1 := i3.held hv
    rw [i3.grows.holders _ _ (i2.grows.holders _ _ ha)] at h1
    cases h1; rfl
  generalize p.1.metaTypeId nm T = q at *
  obtain ⟨r', e, h4, g4, hs, hi, hx⟩ := unregister_ok h3 (i2.good.mono i3.grows) i3.good
  refine ⟨r', e, h4, i2.grows.trans (i3.grows.trans g4), by rw [hs, i3.slots, i2.slots],
    fun k s e => by have := hi k s e; rwa [i3.items, i2.items] at this, ?_⟩
  intro a b i j ha hb hi hj hd
  have := hS a ha; have := hT b hb
  subst_vars
  exact hx i j (i3.grows.info _ _ (i2.grows.info _ _ hi)) (i3.grows.info _ _ (i2.grows.info _ _ hj))
    (fun e => hd (i2.grows.dead.1 (i3.grows.dead.1 e)))

/-! ### shutdown -/

theorem Ok.weaken {sd : Bool} {r : Reg} (h : r.Ok sd) : r.Ok true :=
  ⟨h.pos, h.names, h.info, h.holders, h.items, h.oTypes, h.oConvs, h.afterTypes, h.afterConvs, nofun, nofun⟩

theorem destroyNext_ok {nm : RType → Str} {sd : Bool} {r : Reg} (h : r.Ok sd) :
    ∃ r', r.destroyNext nm = .val r' ∧ r'.Ok true ∧ (r'.types = .destroyed ∨ Grows r r') ∧
      (r.types = .destroyed → r'.types = .destroyed) := by
  unfold destroyNext
  cases ho : r.order with
  | nil => exact ⟨r, rfl, h.weaken, .inr (.refl r), id⟩
  | cons x rest =>
    have suf : ∀ y l l', rest = l ++ y :: l' → r.order = (x :: l) ++ y :: l' := by
      intro y l l' e; rw [ho, e]; rfl
    cases x with
    | types =>
      obtain ⟨n1, n2⟩ := h.afterTypes [] rest ho
      have hc : r.convs ≠ .alive := by
        rw [ne_eq, ← h.oConvs, ho]; simp [n2]
      have hi : ∀ k, r.items k = none := by
        intro k
        cases hs : r.items k with
        | none => rfl
        | some s => exact absurd (h.items k s hs).1 hc
      refine ⟨_, rfl, ⟨h.pos, nofun, nofun, ?_, ?_, ?_, ?_, ?_, ?_, nofun, nofun⟩, .inl rfl, fun _ => rfl⟩
      · intro T k e
        exact ⟨(h.holders T k e).1, .inr (.inl rfl)⟩
      · intro k s e; rw [hi k] at e; cases e
      · simp [n1]
      · simp only [n2, false_iff]; exact hc
      · exact fun l l' e => h.afterTypes _ _ (suf _ _ _ e)
      · exact fun l l' e => h.afterConvs _ _ (suf _ _ _ e)
    | convs =>
      obtain ⟨n1, n2⟩ := h.afterConvs [] rest ho
      refine ⟨_, rfl, ⟨h.pos, h.names, h.info, h.holders, nofun, ?_, ?_, ?_, ?_, nofun, nofun⟩,
        .inr ⟨fun _ _ => id, fun _ _ => id, fun _ _ => id, Nat.le_refl _, Iff.rfl⟩, id⟩
      · have := h.oTypes; rw [ho] at this; simpa using this
      · simp [n1]
      · exact fun l l' e => h.afterTypes _ _ (suf _ _ _ e)
      · exact fun l l' e => h.afterConvs _ _ (suf _ _ _ e)
    | slot s =>
      have h0 : Ok true { r with order := rest } := by
        refine ⟨h.pos, h.names, h.info, h.holders, h.items, ?_, ?_, ?_, ?_, nofun, nofun⟩
        · have := h.oTypes; rw [ho] at this; simpa using this
        · have := h.oConvs; rw [ho] at this; simpa using this
        · exact fun l l' e => h.afterTypes _ _ (suf _ _ _ e)
        · exact fun l l' e => h.afterConvs _ _ (suf _ _ _ e)
      obtain ⟨r', e, o, g, hs, hi, hx⟩ := unregT_ok (nm := nm) (S := ⟨.none, s.src⟩) (T := ⟨.none, s.dst⟩) h0
      dsimp only
      rw [e]
      refine ⟨_, rfl, ⟨o.pos, o.names, o.info, o.holders, ?_, o.oTypes, o.oConvs, o.afterTypes, o.afterConvs, nofun,
        nofun⟩, .inr ⟨g.info, g.names, g.holders, g.next, g.dead⟩, fun hd => g.dead.2 hd⟩
      intro k s' hk
      obtain ⟨h1, ⟨f, h2⟩, h3⟩ := o.items k s' hk
      refine ⟨h1, ⟨f, ?_⟩, h3⟩
      have : s' ≠ s := by
        rintro rfl
        obtain ⟨hc, _, a, b, i, j, h4, h5, h6, h7, rfl⟩ := h.items k s' (hi k s' hk)
        have := hx a b i j h4 h5 h6 h7 (by show r.types ≠ _; rw [h.convs_types hc]; decide)
        rw [this] at hk; cases hk
      simp [upd, this, h2]

/-! ### programs -/

theorem observe_ok {sd : Bool} {r : Reg} {a : Nat} (h : r.Ok sd) (g : r.Good a) (hd : a = 0 ∨ r.types ≠ .destroyed) :
    ∃ o, r.observe a = .val o ∧ (a = 0 → o = neutral) ∧ r.Good o.decay ∧
      ∀ i, r.info a = some i → o = ⟨true, i.name, i.desc, i.decay⟩ := by
  unfold observe
  by_cases h0 : a = 0
  · subst h0
    exact ⟨neutral, by simp [neutral], fun _ => rfl, .inl rfl, fun i hi => by rw [h.info_pos] at hi; cases hi⟩
  · rw [if_neg h0]
    rcases g with g | g | ⟨i, g⟩
    · exact absurd g h0
    · rcases hd with hd | hd
      · exact absurd hd h0
      · exact absurd g hd
    · refine ⟨⟨true, i.name, i.desc, i.decay⟩, by simp [deref, g, Res.bind], fun e => absurd e h0, ?_, ?_⟩
      · exact .inr (.inr (h.info _ _ g).2.2.2.2)
      · intro j hj; rw [g] at hj; cases hj; rfl

/-- no undefined behaviour, and the invariant survives -/
theorem step_ok {nm : RType → Str} {sd : Bool} {r : Reg} {h : List RegOp} {outs : List RegOut} {op : RegOp}
    (hr : r.Ok sd) (hk : ∀ a ∈ known outs, r.Good a) (hsd : .destroy ∉ h → sd = false) (hl : LegalCall h outs op) :
    ∃ r' o, r.step nm op = .val (r', o) ∧ r'.Ok (sd || decide (op = .destroy)) ∧
      (∀ a ∈ idsOf o, r'.Good a) ∧ (r'.types = .destroyed ∨ Grows r r') ∧
      (op ≠ .destroy → Grows r r') ∧ (r.types = .destroyed → r'.types = .destroyed) := by
  have fin : ∀ {r' : Reg} {o : RegOut}, op ≠ .destroy → r.step nm op = .val (r', o) → r'.Ok sd → Grows r r' →
      (∀ a ∈ idsOf o, r'.Good a) → ∃ r' o, r.step nm op = .val (r', o) ∧ r'.Ok (sd || decide (op = .destroy)) ∧
      (∀ a ∈ idsOf o, r'.Good a) ∧ (r'.types = .destroyed ∨ Grows r r') ∧
      (op ≠ .destroy → Grows r r') ∧ (r.types = .destroyed → r'.types = .destroyed) := by
    intro r' o h1 h2 h3 h4 h5
    exact ⟨r', o, h2, by simpa [h1] using h3, h5, .inr h4, fun _ => h4, h4.dead.2⟩
  have hd_good : ∀ a ∈ known outs, r.touch.Good (r.hd a) ∧ (r.hd a = 0 ∨ r.touch.types ≠ .destroyed) := by
    intro a ha
    by_cases hd : r.types = .destroyed
    · simp [Reg.hd, hd, Good]
    · simp only [Reg.hd, hd, if_false]
      exact ⟨(hk a ha).mono (Grows.touch r), .inr fun e => hd (touch_destroyed.1 e)⟩
  cases op with
  | reg n d c =>
    obtain ⟨h1, h2, h3⟩ := registerMetaType_ok (n := n) (d := d) hr (hk c hl)
    exact fin (by simp) rfl h1 h2 (by simpa [idsOf] using h3)
  | lookup n =>
    refine fin (r' := r.touch) (o := .id (r.hd (r.getTypeInfo n))) (by simp) ?_ hr.touch (Grows.touch r) ?_
    · simp only [step, ofName_eq, typeId_eq, hd_touch, touch_touch]
      congr 3
      unfold Reg.hd
      split <;> rfl
    · simp only [idsOf, List.mem_singleton, forall_eq, Reg.hd, getTypeInfo]
      split
      · exact .inl rfl
      · split
        · exact .inl rfl
        · split
          · rename_i k hk
            obtain ⟨i, hi, _⟩ := hr.names n k hk
            exact .inr (.inr ⟨i, by simpa using hi⟩)
          · exact .inl rfl
  | observe a =>
    obtain ⟨g, g'⟩ := hd_good a hl
    obtain ⟨o, e, _, h3, _⟩ := observe_ok hr.touch g g'
    refine fin (r' := r.touch) (o := .obs o) (by simp) ?_ hr.touch (Grows.touch r) (by simpa [idsOf] using h3)
    simp [step, ofId_eq, e, Res.bind]
  | observeOld a =>
    have hf := hsd hl.2
    obtain ⟨o, e, _, h3, _⟩ := observe_ok hr (hk a hl.1) (.inr (hr.phases hf).1)
    refine fin (r' := r) (o := .obs o) (by simp) ?_ hr (.refl r) (by simpa [idsOf] using h3)
    simp [step, e, Res.bind]
  | idOf T =>
    obtain ⟨h1, h2⟩ := metaTypeId_ok (nm := nm) (T := T) hr
    exact fin (by simp) rfl h1 h2.grows (by simpa [idsOf] using h2.good)
  | compatible a b =>
    obtain ⟨g1, g1'⟩ := hd_good a hl.1
    obtain ⟨g2, g2'⟩ := hd_good b hl.2
    have : ∃ o, r.touch.compatibleH (r.hd a) (r.hd b) = .val o := by
      unfold compatibleH
      split
      · exact ⟨_, rfl⟩
      · rename_i h0
        have h0' : r.hd a ≠ 0 ∧ r.hd b ≠ 0 := by simpa using h0
        have ht : r.touch.types = .alive := by
          rw [touch_types, if_neg]
          intro hd
          exact h0'.1 (by simp [Reg.hd, hd])
        obtain ⟨i, e1, _⟩ := deref_good ht g1 h0'.1
        obtain ⟨j, e2, _⟩ := deref_good ht g2 h0'.2
        exact ⟨_, by simp [e1, e2, Res.bind]; rfl⟩
    obtain ⟨o, e⟩ := this
    refine fin (r' := r.touch) (o := .compat o) (by simp) ?_ hr.touch (Grows.touch r) (by simp [idsOf])
    simp [step, ofId_eq, e, Res.bind]
  | has a b =>
    obtain ⟨r', o, e, h1, h2⟩ := hasConverter_ok hr (hk a hl.1) (hk b hl.2)
    exact fin (r' := r') (o := .bool o) (by simp) (by simp [step, e, Res.bind]) h1 h2 (by simp [idsOf])
  | convert a b =>
    obtain ⟨r', o, e, h1, h2⟩ := convert_ok hr (hk a hl.1) (hk b hl.2)
    exact fin (r' := r') (o := .ran o) (by simp) (by simp [step, e, Res.bind]) h1 h2 (by simp [idsOf])
  | unreg a b =>
    obtain ⟨r', e, h1, h2, _⟩ := unregister_ok hr (hk a hl.1) (hk b hl.2)
    exact fin (r' := r') (o := .unit) (by simp) (by simp [step, e, Res.bind]) h1 h2 (by simp [idsOf])
  | hasT S T =>
    obtain ⟨r', o, e, h1, h2⟩ := hasT_ok (nm := nm) (S := S) (T := T) hr
    exact fin (r' := r') (o := .bool o) (by simp) (by simp [step, e, Res.bind]) h1 h2 (by simp [idsOf])
  | convertT S T =>
    obtain ⟨r', o, e, h1, h2⟩ := convertT_ok (nm := nm) (S := S) (T := T) hr
    exact fin (r' := r') (o := .ran o) (by simp) (by simp [step, e, Res.bind]) h1 h2 (by simp [idsOf])
  | regT S T f fn =>
    obtain ⟨r', o, e, h1, h2⟩ := registerT_ok (nm := nm) (S := S) (T := T) (f := f) (fn := fn) hr
      (hr.noDead (hsd hl) _)
    exact fin (r' := r') (o := .bool o) (by simp) (by simp [step, e, Res.bind]) h1 h2 (by simp [idsOf])
  | unregT S T =>
    obtain ⟨r', e, h1, h2, _⟩ := unregT_ok (nm := nm) (S := S) (T := T) hr
    exact fin (r' := r') (o := .unit) (by simp) (by simp [step, e, Res.bind]) h1 h2 (by simp [idsOf])
  | destroy =>
    obtain ⟨r', e, h1, h2, h3⟩ := destroyNext_ok (nm := nm) hr
    exact ⟨r', .unit, by simp [step, e, Res.bind], by simpa using h1, by simp [idsOf], h2, by simp, h3⟩

theorem run_snoc (nm : RType → Str) (r : Reg) (h : List RegOp) (op : RegOp) :
    r.run nm (h ++ [op]) = (r.run nm h).bind fun p => (p.1.step nm op).bind fun q => .val (q.1, p.2 ++ [q.2]) := by
  induction h generalizing r with
  | nil =>
    simp only [List.nil_append, run, Res.bind]
  | cons x h ih =>
    simp only [List.cons_append, run]
    cases r.step nm x with
    | val p =>
      simp only [Res.bind, ih]
      cases p.1.run nm h with
      | val q =>
        simp only
        cases q.1.step nm op <;> rfl
      | _ => rfl
    | _ => rfl

theorem run_length {nm : RType → Str} {r r' : Reg} {h : List RegOp} {outs : List RegOut}
    (e : r.run nm h = .val (r', outs)) : outs.length = h.length := by
  induction h generalizing r outs with
  | nil => simp only [run] at e; cases e; rfl
  | cons x h ih =>
    simp only [run] at e
    cases e1 : r.step nm x with
    | val p =>
      simp only [e1, Res.bind] at e
      cases e2 : p.1.run nm h with
      | val q =>
        simp only [e2] at e
        cases e
        simp [ih e2]
      | _ => simp [e2] at e
    | _ => simp [e1, Res.bind] at e

/-- last step of a run -/
theorem run_snoc_val {nm : RType → Str} {r r' : Reg} {h : List RegOp} {op : RegOp} {outs : List RegOut}
    (e : r.run nm (h ++ [op]) = .val (r', outs)) :
    ∃ r1 outs1 o, r.run nm h = .val (r1, outs1) ∧ r1.step nm op = .val (r', o) ∧ outs = outs1 ++ [o] := by
  rw [run_snoc] at e
  cases e1 : r.run nm h with
  | val p =>
    simp only [e1, Res.bind] at e
    cases e2 : p.1.step nm op with
    | val q =>
      simp only [e2] at e
      cases e
      exact ⟨p.1, p.2, q.2, rfl, e2, rfl⟩
    | _ => simp [e2] at e
  | _ => simp [e1, Res.bind] at e

theorem LegalProgram.snoc {h : List RegOp} {op : RegOp} {outs : List RegOut} {o : RegOut}
    (hl : outs.length = h.length) :
    LegalProgram (h ++ [op]) (outs ++ [o]) ↔ LegalProgram h outs ∧ LegalCall h outs op := by
  constructor
  · intro H
    refine ⟨fun i hi => ?_, ?_⟩
    · have := H i (by simp; omega)
      rwa [List.take_append_of_le_length (by omega), List.take_append_of_le_length (by omega),
        List.getElem_append_left hi] at this
    · have := H h.length (by simp)
      rw [List.take_append_of_le_length (by omega), List.take_append_of_le_length (by omega)] at this
      have e : outs.take h.length = outs := by rw [← hl, List.take_length]
      simpa [e] using this
  · rintro ⟨H, H'⟩ i hi
    by_cases hi' : i < h.length
    · rw [List.take_append_of_le_length (by omega), List.take_append_of_le_length (by omega),
        List.getElem_append_left hi']
      exact H i hi'
    · have : i = h.length := by simp at hi; omega
      subst this
      rw [List.take_append_of_le_length (by omega), List.take_append_of_le_length (by omega)]
      have e : outs.take h.length = outs := by rw [← hl, List.take_length]
      simpa [e] using H'

theorem snocInd {A : Type} {P : List A → Prop} (h0 : P []) (h1 : ∀ l a, P l → P (l ++ [a])) (l : List A) : P l := by
  have : ∀ l : List A, P l.reverse := by
    intro l
    induction l with
    | nil => exact h0
    | cons a l ih => simpa using h1 _ a ih
  simpa using this l.reverse

/-- the invariant holds after every legal program -/
theorem run_ok {nm : RType → Str} (h : List RegOp) : ∀ {r : Reg} {outs : List RegOut},
    init.run nm h = .val (r, outs) → LegalProgram h outs →
    r.Ok (decide (.destroy ∈ h)) ∧ ∀ a ∈ known outs, r.Good a := by
  induction h using snocInd with
  | h0 =>
    intro r outs e _
    simp only [run] at e
    cases e
    exact ⟨Ok.init, by simp [known, Good]⟩
  | h1 h op ih =>
    intro r outs e hl
    obtain ⟨r1, outs1, o, e1, e2, rfl⟩ := run_snoc_val e
    rw [LegalProgram.snoc (run_length e1)] at hl
    obtain ⟨h1, h2⟩ := ih e1 hl.1
    obtain ⟨r', o', e3, h3, h4, h5, _⟩ := step_ok (nm := nm) h1 h2 (by simp) hl.2
    rw [e2] at e3
    cases e3
    refine ⟨?_, ?_⟩
    · rw [show decide (RegOp.destroy ∈ h ++ [op]) = (decide (RegOp.destroy ∈ h) || decide (op = RegOp.destroy)) by
        simp only [List.mem_append, List.mem_singleton, Bool.decide_or]; rw [decide_eq_decide.2 (Iff.intro Eq.symm Eq.symm)]]
      exact h3
    · intro a ha
      simp only [known, List.flatMap_append, List.flatMap_cons, List.flatMap_nil, List.append_nil, List.mem_cons,
        List.mem_append] at ha
      rcases ha with ha | ha | ha
      · exact .inl ha
      · have := h2 a (List.mem_cons_of_mem _ ha)
        rcases h5 with h5 | h5
        · exact .inr (.inl h5)
        · exact this.mono h5
      · exact h4 a ha

end Reg
end Rtti

namespace Rtti.Reg
open Rtti.Spec

/-- a run seen from its `i`-th call -/
theorem run_at {nm : RType → Str} {r r' : Reg} {h : List RegOp} {outs : List RegOut}
    (e : r.run nm h = .val (r', outs)) (i : Nat) (hi : i < h.length) (ho : i < outs.length) :
    ∃ r1 r2, r.run nm (h.take i) = .val (r1, outs.take i) ∧ r1.step nm h[i] = .val (r2, outs[i]) ∧
      r2.run nm (h.drop (i + 1)) = .val (r', outs.drop (i + 1)) := by
  induction h generalizing r outs i with
  | nil => simp at hi
  | cons x h ih =>
    simp only [run] at e
    cases e1 : r.step nm x with
    | val p =>
      simp only [e1, Res.bind] at e
      cases e2 : p.1.run nm h with
      | val q =>
        simp only [e2] at e
        cases e
        cases i with
        | zero => exact ⟨r, p.1, rfl, by simpa using e1, by simpa using e2⟩
        | succ i =>
          obtain ⟨r1, r2, h1, h2, h3⟩ := ih e2 i (by simpa using hi) (by simpa using ho)
          refine ⟨r1, r2, ?_, by simpa using h2, by simpa using h3⟩
          simp only [List.take_succ_cons, run, e1, Res.bind, h1]
      | _ => simp [e2] at e
    | _ => simp [e1, Res.bind] at e

theorem run_cons_val {nm : RType → Str} {r r' : Reg} {x : RegOp} {h : List RegOp} {outs : List RegOut}
    (e : r.run nm (x :: h) = .val (r', outs)) :
    ∃ r1 o outs', r.step nm x = .val (r1, o) ∧ r1.run nm h = .val (r', outs') ∧ outs = o :: outs' := by
  simp only [run] at e
  cases e1 : r.step nm x with
  | val p =>
    simp only [e1, Res.bind] at e
    cases e2 : p.1.run nm h with
    | val q =>
      simp only [e2] at e
      cases e
      exact ⟨p.1, p.2, q.2, rfl, e2, rfl⟩
    | _ => simp [e2] at e
  | _ => simp [e1, Res.bind] at e

/-! ### programs that use only the type registry -/

/-- state after the calls `h` -/
structure TypesAre (h : List RegOp) (r : Reg) : Prop where
  alive : r.types ≠ .destroyed
  pos : 0 < r.next
  names : ∀ n k, r.names n = some k → 0 < k ∧ k < r.next ∧ n ≠ [] ∧
    ∃ d c, firstReg h n = some (d, c) ∧ r.info k = some ⟨n, d, if c = 0 then k else c⟩
  absent : ∀ n, n ≠ [] → r.names n = none → firstReg h n = none

theorem firstReg_snoc (h : List RegOp) (op : RegOp) (n : Str) :
    firstReg (h ++ [op]) n = (firstReg h n).or (firstReg [op] n) := by
  simp [firstReg, List.findSome?_append]

theorem TypesAre.congr {h : List RegOp} {r r' : Reg} {op : RegOp} (t : TypesAre h r) (h0 : ∀ n, firstReg [op] n = none)
    (h1 : r'.types ≠ .destroyed) (h2 : r'.next = r.next) (h3 : r'.names = r.names) (h4 : r'.info = r.info) :
    TypesAre (h ++ [op]) r' := by
  have e : ∀ n, firstReg (h ++ [op]) n = firstReg h n := by intro n; rw [firstReg_snoc, h0]; simp
  refine ⟨h1, by rw [h2]; exact t.pos, ?_, ?_⟩
  · intro n k; rw [h2, h3, h4, e]; exact t.names n k
  · intro n; rw [h3, e]; exact t.absent n

theorem typeCall_ok {nm : RType → Str} {h : List RegOp} {r r' : Reg} {op : RegOp} {o : RegOut} (t : TypesAre h r)
    (hc : TypeCall op) (e : r.step nm op = .val (r', o)) :
    TypesAre (h ++ [op]) r' ∧ (∀ n k, r.names n = some k → r'.names n = some k) ∧
    TypeAnswer (fun n => (r'.names n).getD 0) h op o := by
  have td : r.touch.types ≠ .destroyed := fun h => t.alive (touch_destroyed.1 h)
  cases op with
  | lookup n =>
    have e' : r.step nm (.lookup n) = .val (r.touch, .id (r.getTypeInfo n)) := by
      simp [step, ofName_eq, typeId_eq, Reg.hd, t.alive, td]
    rw [e'] at e; cases e
    refine ⟨t.congr (by simp [firstReg]) td (by simp) (by simp) (by simp), by simp, ?_⟩
    simp only [TypeAnswer, getTypeInfo, touch_names]
    by_cases hn : n = []
    · simp [hn]
    · simp only [hn, if_false, ne_eq, not_false_eq_true, true_and]
      cases hk : r.names n with
      | none => simp [t.absent n hn hk]
      | some k =>
        obtain ⟨_, _, _, d, c, h1, _⟩ := t.names n k hk
        simp [h1]
  | observe a =>
    simp only [step, ofId_eq, Reg.hd, t.alive, if_false] at e
    cases e1 : r.touch.observe a with
    | val ob =>
      simp only [e1, Res.bind] at e; cases e
      refine ⟨t.congr (by simp [firstReg]) td (by simp) (by simp) (by simp), by simp, ?_⟩
      intro n d c hn hf ha
      simp only [touch_names] at ha
      cases hk : r.names n with
      | none => rw [t.absent n hn hk] at hf; cases hf
      | some k =>
        rw [hk] at ha
        simp only [Option.getD_some] at ha
        subst ha
        obtain ⟨h0, _, _, d', c', h1, h2⟩ := t.names n a hk
        rw [hf] at h1; cases h1
        unfold observe at e1
        rw [if_neg (by omega)] at e1
        simp [deref, h2, Res.bind] at e1
        simp [← e1]
    | _ => simp [e1, Res.bind] at e
  | reg n d c =>
    simp only [step, registerMetaType_eq, t.alive, if_false] at e
    cases e
    unfold addTypeInfo
    by_cases hn : n = []
    · subst hn
      simp only [if_true]
      refine ⟨⟨td, by simpa using t.pos, ?_, ?_⟩, by simp, by simp [TypeAnswer]⟩
      · intro m k hk
        obtain ⟨h1, h2, h3, d', c', h4, h5⟩ := t.names m k (by simpa using hk)
        refine ⟨h1, by simpa using h2, h3, d', c', ?_, by simpa using h5⟩
        rw [firstReg_snoc, h4]; rfl
      · intro m hm hk
        rw [firstReg_snoc, t.absent m hm (by simpa using hk)]
        simp [firstReg, Ne.symm hm]
    · simp only [hn, if_false, touch_names]
      cases hk : r.names n with
      | some k =>
        simp only
        refine ⟨⟨td, by simpa using t.pos, ?_, ?_⟩, by simp, by simp [TypeAnswer, hn, hk]⟩
        · intro m k hk
          obtain ⟨h1, h2, h3, d', c', h4, h5⟩ := t.names m k (by simpa using hk)
          refine ⟨h1, by simpa using h2, h3, d', c', ?_, by simpa using h5⟩
          rw [firstReg_snoc, h4]; rfl
        · intro m hm hk'
          have hk' : r.names m = none := by simpa using hk'
          rw [firstReg_snoc, t.absent m hm hk']
          have : n ≠ m := by rintro rfl; rw [hk] at hk'; cases hk'
          simp [firstReg, this]
      | none =>
        simp only [touch_next, touch_info]
        refine ⟨⟨td, Nat.succ_pos _, ?_, ?_⟩, ?_, by simp [TypeAnswer, hn, upd]⟩
        · intro m k e
          by_cases hm : m = n
          · subst hm
            simp [upd] at e
            subst e
            refine ⟨t.pos, by simp, hn, d, c, ?_, by simp [upd]⟩
            rw [firstReg_snoc, t.absent m hn hk]; simp [firstReg]
          · simp [upd, hm] at e
            obtain ⟨h1, h2, h3, d', c', h4, h5⟩ := t.names m k e
            refine ⟨h1, by simp; omega, h3, d', c', ?_, ?_⟩
            · rw [firstReg_snoc, h4]; rfl
            · have : k ≠ r.next := by omega
              simp [upd, this, h5]
        · intro m hm e
          by_cases hmn : m = n
          · subst hmn; simp [upd] at e
          · simp [upd, hmn] at e
            rw [firstReg_snoc, t.absent m hm e]
            simp [firstReg, Ne.symm hmn]
        · intro m k e
          have : m ≠ n := by rintro rfl; rw [hk] at e; cases e
          simp [upd, this, e]
  | _ => cases hc

theorem typeCalls_ok {nm : RType → Str} (h : List RegOp) (hc : ∀ op ∈ h, TypeCall op) : ∀ {r outs},
    init.run nm h = .val (r, outs) → TypesAre h r := by
  induction h using snocInd with
  | h0 =>
    intro r outs e
    simp only [run] at e; cases e
    refine ⟨by simp [init], by simp [init], ?_, by simp [firstReg]⟩
    intro n k h; cases h
  | h1 h op ih =>
    intro r outs e
    obtain ⟨r1, outs1, o, e1, e2, rfl⟩ := run_snoc_val e
    exact (typeCall_ok (ih (fun x hx => hc x (by simp [hx])) e1) (hc op (by simp)) e2).1

theorem typeCalls_names {nm : RType → Str} (h' : List RegOp) : ∀ {h r r' outs}, TypesAre h r → (∀ op ∈ h', TypeCall op) →
    r.run nm h' = .val (r', outs) → ∀ n k, r.names n = some k → r'.names n = some k := by
  induction h' with
  | nil => intro h r r' outs _ _ e; simp only [run] at e; cases e; exact fun _ _ => id
  | cons x h' ih =>
    intro h r r' outs t hc e n k hk
    obtain ⟨r1, o, outs', e1, e2, rfl⟩ := run_cons_val e
    obtain ⟨t1, g, _⟩ := typeCall_ok t (hc x (by simp)) e1
    exact ih t1 (fun y hy => hc y (by simp [hy])) e2 n k (g n k hk)

/-- after the registry is gone -/
theorem gone {nm : RType → Str} {r : Reg} (hd : r.types = .destroyed) (op : RegOp) (h1 : op ≠ .destroy)
    (h2 : ∀ a, op ≠ .observeOld a) :
    ∃ r' o, r.step nm op = .val (r', o) ∧ AfterShutdown op o ∧ r'.types = .destroyed := by
  have ht : r.touch = r := touch_of_destroyed hd
  have hh : ∀ a, r.hd a = 0 := by intro a; simp [Reg.hd, hd]
  have rm : ∀ (r : Reg) n d c, r.types = .destroyed → r.registerMetaType n d c = (r, 0) := by
    intro r n d c hd; rw [registerMetaType_eq, if_pos hd]
  have ih : ∀ (r : Reg) T c, r.types = .destroyed → (r.initHolder nm T c).1.types = .destroyed := by
    intro r T c hd; unfold initHolder; rw [rm _ _ _ _ hd]; exact hd
  have md : ∀ (r : Reg) T, r.types = .destroyed → (r.metaTypeIdDecayed nm T).1.types = .destroyed := by
    intro r T hd
    unfold metaTypeIdDecayed
    split
    · exact hd
    · split
      · exact hd
      · exact ih _ _ _ hd
  have mt : ∀ (r : Reg) T, r.types = .destroyed → (r.metaTypeId nm T).1.types = .destroyed := by
    intro r T hd
    unfold metaTypeId
    split
    · exact hd
    · split
      · exact hd
      · dsimp only
        split
        · exact ih _ _ _ hd
        · exact ih _ _ _ (md _ _ hd)
  have wl : ∀ {A : Type} (r : Reg) (a b : Nat) (x : A) f, r.types = .destroyed →
      ((r.ofId a).1.ofId b).1.withList (r.ofId a).2 ((r.ofId a).1.ofId b).2 x f = .val (r, x) := by
    intro A r a b x f hd
    simp [ofId_eq, withList, Reg.hd, hd, touch_of_destroyed hd]
  cases op with
  | reg n d c => exact ⟨r, .id 0, by simp [step, rm _ _ _ _ hd], rfl, hd⟩
  | lookup n => exact ⟨r, .id 0, by simp [step, ofName_eq, typeId_eq, hh, ht], rfl, hd⟩
  | observe a =>
    exact ⟨r, .obs neutral, by simp [step, ofId_eq, hh, ht, Reg.observe, Res.bind, neutral], rfl, hd⟩
  | observeOld a => exact absurd rfl (h2 a)
  | idOf T => exact ⟨_, _, rfl, trivial, mt _ _ hd⟩
  | compatible a b =>
    exact ⟨r, .compat (some false), by simp [step, ofId_eq, hh, ht, compatibleH, Res.bind], rfl, hd⟩
  | has a b =>
    refine ⟨r, .bool false, ?_, rfl, hd⟩
    simp only [step, hasConverter, hasConverterH, wl _ _ _ _ _ hd, Res.bind]
  | convert a b =>
    refine ⟨r, .ran none, ?_, rfl, hd⟩
    simp only [step, Reg.convert, convertH, wl _ _ _ _ _ hd, Res.bind]
  | unreg a b =>
    refine ⟨r, .unit, ?_, trivial, hd⟩
    simp only [step, unregisterConverter, wl _ _ _ _ _ hd, Res.bind]
  | hasT S T =>
    refine ⟨_, .bool false, ?_, rfl, mt _ T (mt _ S hd)⟩
    simp only [step, hasConverterT, hasConverter, hasConverterH, wl _ _ _ _ _ (mt _ T (mt _ S hd)), Res.bind]
  | convertT S T =>
    refine ⟨_, .ran none, ?_, rfl, mt _ T (mt _ S hd)⟩
    simp only [step, Reg.convertT, Reg.convert, convertH, wl _ _ _ _ _ (mt _ T (mt _ S hd)), Res.bind]
  | regT S T f fn =>
    refine ⟨_, .bool false, ?_, rfl, mt _ ⟨.none, T.t.fullDecay⟩ (mt _ ⟨.none, S.t.fullDecay⟩ ((useSlot_types r (slotOf S T f) fn).trans hd))⟩
    simp only [step, registerConverterT, registerConverter,
      wl _ _ _ _ _ (mt _ ⟨.none, T.t.fullDecay⟩ (mt _ ⟨.none, S.t.fullDecay⟩ ((useSlot_types r (slotOf S T f) fn).trans hd))), Res.bind]
  | unregT S T =>
    refine ⟨_, .unit, ?_, trivial, mt _ T (mt _ S hd)⟩
    simp only [step, unregisterConverterT, unregisterConverter, wl _ _ _ _ _ (mt _ T (mt _ S hd)), Res.bind]
  | destroy => exact absurd rfl h1

/-- two moments of a legal program without destruction -/
theorem run_between {nm : RType → Str} {ops : List RegOp} {r : Reg} {outs : List RegOut}
    (e : Reg.init.run nm ops = .val (r, outs)) (hl : LegalProgram ops outs) (hd : .destroy ∉ ops)
    {i j : Nat} (hij : i < j) (hj : j < ops.length) (ho : outs.length = ops.length) :
    ∃ r1 r2 r3 r4, r1.step nm ops[i] = .val (r2, outs[i]'(by omega)) ∧ r3.step nm ops[j] = .val (r4, outs[j]'(by omega)) ∧
      r1.Ok false ∧ r3.Ok false ∧ Grows r1 r3 ∧
      ∀ a ∈ known (outs.take i), r1.Good a := by
  have ok_at : ∀ p, p ≤ ops.length → ∀ {r' o'}, Reg.init.run nm (ops.take p) = .val (r', o') → o' = outs.take p →
      r'.Ok false ∧ ∀ a ∈ known o', r'.Good a := by
    rintro p hp r' _ e' rfl
    have hd' : decide (RegOp.destroy ∈ ops.take p) = false := by
      rw [decide_eq_false_iff_not]; exact fun h => hd (List.mem_of_mem_take h)
    have := run_ok _ e' (by
      intro i hi
      have := hl i (by simp at hi; omega)
      simp only [List.length_take] at hi
      rw [List.take_take, List.take_take, Nat.min_eq_left (by omega), List.getElem_take]
      exact this)
    rwa [hd'] at this
  -- `names` only grows
  have grow : ∀ (q : List RegOp) (h : List RegOp) {r1 r2 o1 o2}, r1.Ok false → (∀ a ∈ known o1, r1.Good a) →
      .destroy ∉ h → .destroy ∉ q → r1.run nm q = .val (r2, o2) → (∀ i (hi : i < q.length),
        LegalCall (h ++ q.take i) (o1 ++ o2.take i) q[i]) → Grows r1 r2 := by
    intro q
    induction q with
    | nil => intro h r1 r2 o1 o2 _ _ _ _ e _; simp only [run] at e; cases e; exact .refl _
    | cons x q ih =>
      intro h r1 r2 o1 o2 ok kn hh hq e hleg
      obtain ⟨r3, o, o3, e1, e2, rfl⟩ := run_cons_val e
      have hx : x ≠ .destroy := fun e => hq (by simp [e])
      obtain ⟨r3', o', e3, ok3, kn3, _, g, _⟩ := step_ok (nm := nm) (h := h) (outs := o1) (op := x) ok kn (fun _ => rfl)
        (by have := hleg 0 (by simp); simp only [List.take_zero, List.append_nil, List.getElem_cons_zero] at this; exact this)
      rw [e1] at e3; cases e3
      refine (g hx).trans (ih (h ++ [x]) (o1 := o1 ++ [o]) (by simpa [hx] using ok3) ?_ (by simp [hh, Ne.symm hx])
        (fun h => hq (by simp [h])) e2 ?_)
      · intro a ha
        simp only [known, List.flatMap_append, List.flatMap_cons, List.flatMap_nil, List.append_nil, List.mem_cons,
          List.mem_append] at ha
        rcases ha with ha | ha | ha
        · exact .inl ha
        · exact (kn a (List.mem_cons_of_mem _ ha)).mono (g hx)
        · exact kn3 a ha
      · intro i hi
        have := hleg (i + 1) (by simpa using hi)
        simpa using this
  obtain ⟨r1, r2, a1, a2, a3⟩ := run_at e i (by omega) (by omega)
  obtain ⟨r3, r4, b1, b2, b3⟩ := run_at e j hj (by omega)
  have ok1 := ok_at i (by omega) a1 rfl
  have ok3 := ok_at j (by omega) b1 rfl
  refine ⟨r1, r2, r3, r4, a2, b2, ok1.1, ok3.1, ?_, ok1.2⟩
  have hsplit : ops.take j = ops.take i ++ (ops.take j).drop i := by
    have := (List.take_append_drop i (ops.take j)).symm
    rwa [List.take_take, Nat.min_eq_left (by omega)] at this
  have osplit : outs.take j = outs.take i ++ (outs.take j).drop i := by
    have := (List.take_append_drop i (outs.take j)).symm
    rwa [List.take_take, Nat.min_eq_left (by omega)] at this
  have app : ∀ (p q : List RegOp) {a b : Reg} {oa ob}, a.run nm (p ++ q) = .val (b, ob) →
      ∀ {c}, a.run nm p = .val (c, oa) → ∃ oc, c.run nm q = .val (b, oc) ∧ ob = oa ++ oc := by
    intro p
    induction p with
    | nil => intro q a b oa ob h c h'; simp only [run] at h'; cases h'; exact ⟨ob, h, rfl⟩
    | cons x p ih =>
      intro q a b oa ob h c h'
      obtain ⟨r1, o1, s1, e1, e2, rfl⟩ := run_cons_val h
      obtain ⟨r1', o1', s1', e1', e2', rfl⟩ := run_cons_val h'
      rw [e1] at e1'; cases e1'
      obtain ⟨oc, h1, rfl⟩ := ih q e2 e2'
      exact ⟨oc, h1, rfl⟩
  have b1' := b1
  rw [hsplit] at b1'
  obtain ⟨oc, c1, c2⟩ := app _ _ b1' a1
  refine grow _ (ops.take i) ok1.1 ok1.2 (fun h => hd (List.mem_of_mem_take h))
    (fun h => hd (List.mem_of_mem_take (List.mem_of_mem_drop h))) c1 ?_
  intro x hx
  have hx' : x < j - i := by simp at hx; omega
  have := hl (i + x) (by omega)
  have e1 : ops.take (i + x) = ops.take i ++ ((ops.take j).drop i).take x := by
    rw [List.take_add, List.drop_take, List.take_take, Nat.min_eq_left (by omega)]
  have e2 : outs.take (i + x) = outs.take i ++ oc.take x := by
    have : oc = (outs.take j).drop i := by
      have := c2.symm.trans osplit
      exact List.append_cancel_left this
    rw [this, List.take_add, List.drop_take, List.take_take, Nat.min_eq_left (by omega)]
  rw [e1, e2] at this
  have e3 : ((ops.take j).drop i)[x] = ops[i + x] := by
    rw [List.getElem_drop, List.getElem_take]
  rw [e3]
  exact this

end Rtti.Reg
