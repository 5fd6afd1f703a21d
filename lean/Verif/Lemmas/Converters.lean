import Verif.Lemmas.Registry
set_option autoImplicit false
namespace Rtti
open Spec
namespace Reg

/-- the decayed type -/
def dec (T : RType) : RType := ⟨.none, T.t.fullDecay⟩

theorem dec_dec (T : RType) : dec (dec T) = dec T := by
  simp only [dec, fullDecay_ref_free]

theorem isVoid_dec (T : RType) : isVoid (dec T) = true ↔ IsVoid T.t := by
  unfold dec IsVoid
  cases h : T.t with
  | base b q =>
    by_cases hk : b.kind = .func
    · simp [CType.fullDecay, CType.decay, hk, CType.removeAllCv, isVoid]
    · simp [CType.fullDecay, CType.decay, hk, CType.removeAllCv, isVoid]
  | ptr => simp [CType.fullDecay, CType.decay, CType.removeAllCv, isVoid]
  | arr => simp [CType.fullDecay, CType.decay, CType.removeAllCv, isVoid]

theorem isVoid_imp {T : RType} (h : isVoid T = true) : IsVoid T.t := by
  unfold isVoid at h
  split at h
  · rename_i b
    exact ⟨b, _, rfl, by simpa using h⟩
  · cases h

theorem samePair_iff {S T S' T' : RType} : SamePair S T S' T' ↔ dec S = dec S' ∧ dec T = dec T' := by
  unfold SamePair dec
  rw [← fullDecay_iff, ← fullDecay_iff]
  simp

/-- state of the type part in programs that use the templates -/
structure TOk (nm : RType → Str) (r : Reg) : Prop where
  held : ∀ T k, r.holders T = some k → ∃ d, r.info k = some ⟨nm T, describe T, d⟩ ∧
    (if isVoid (dec T) ∨ T = dec T then d = k else r.holders (dec T) = some d)
  names : ∀ n k, r.names n = some k → ∃ T, r.holders T = some k ∧ nm T = n

variable {nm : RType → Str}

theorem TOk.init : TOk nm init := ⟨(by intro T k h; cases h), (by intro T k h; cases h)⟩

theorem TOk.inj (hn : Function.Injective nm) {r : Reg} (t : TOk nm r) {S T : RType} {k : Nat}
    (h1 : r.holders S = some k) (h2 : r.holders T = some k) : S = T := by
  obtain ⟨d, e, _⟩ := t.held S k h1
  obtain ⟨d', e', _⟩ := t.held T k h2
  rw [e] at e'
  simp only [Option.some.injEq, Info.mk.injEq] at e'
  exact hn e'.1

theorem TOk.ne_zero {sd : Bool} {r : Reg} (o : r.Ok sd) (t : TOk nm r) {T : RType} {k : Nat}
    (h : r.holders T = some k) : k ≠ 0 := by
  rintro rfl
  obtain ⟨d, e, _⟩ := t.held T 0 h
  rw [o.info_pos] at e; cases e

/-- an id that is a `TypeInfo` is the id of a type -/
theorem TOk.of_info {sd : Bool} {r : Reg} (o : r.Ok sd) (t : TOk nm r) {k : Nat} {i : Info} (h : r.info k = some i) :
    ∃ T, r.holders T = some k := by
  obtain ⟨T, hT, _⟩ := t.names _ _ (o.info k i h).1
  exact ⟨T, hT⟩

theorem initHolder_typed (hn : Function.Injective nm) (h0 : ∀ T, nm T ≠ []) {r : Reg} {T : RType} {c : Nat}
    (o : r.Ok false) (t : TOk nm r) (hT : r.holders T = none)
    (hc : if isVoid (dec T) ∨ T = dec T then c = 0 else r.holders (dec T) = some c) :
    TOk nm (r.initHolder nm T c).1 := by
  have nn : r.touch.names (nm T) = none := by
    rw [touch_names]
    cases e : r.names (nm T) with
    | none => rfl
    | some k =>
      obtain ⟨S, h1, h2⟩ := t.names _ _ e
      rw [hn h2, hT] at h1; cases h1
  have e : r.initHolder nm T c = ({ r.touch with
      next := r.next + 1,
      info := upd r.info r.next (some ⟨nm T, describe T, if c = 0 then r.next else c⟩),
      names := upd r.names (nm T) (some r.next),
      holders := upd r.holders T (some r.next) }, r.next) := by
    unfold initHolder
    rw [registerMetaType_eq, if_neg (o.phases rfl).1]
    unfold addTypeInfo
    rw [if_neg (h0 T), nn]
    simp
  rw [e]
  have fresh : ∀ k i, r.info k = some i → k ≠ r.next := by
    intro k i e; have := (o.info k i e).2.2.1; omega
  refine ⟨?_, ?_⟩
  · intro S k hS
    by_cases hST : S = T
    · subst hST
      simp [upd] at hS
      subst hS
      refine ⟨_, by simp [upd]; rfl, ?_⟩
      split at hc
      · rename_i hx
        rw [if_pos hx, if_pos hc]
      · rename_i hx
        rw [if_neg hx]
        have : c ≠ 0 := t.ne_zero o hc
        rw [if_neg this]
        have hne : dec S ≠ S := fun e => hx (.inr e.symm)
        simp [upd, hne, hc]
    · simp [upd, hST] at hS
      obtain ⟨d, h1, h2⟩ := t.held S k hS
      refine ⟨d, by simp [upd, fresh k _ h1, h1], ?_⟩
      split at h2
      · rename_i hx; rw [if_pos hx]; exact h2
      · rename_i hx
        rw [if_neg hx]
        have : dec S ≠ T := by rintro rfl; rw [hT] at h2; cases h2
        simp [upd, this, h2]
  · intro n k hk
    by_cases hnT : n = nm T
    · subst hnT
      simp [upd] at hk
      exact ⟨T, by simp [upd, hk], rfl⟩
    · simp [upd, hnT] at hk
      obtain ⟨S, h1, h2⟩ := t.names n k hk
      have : S ≠ T := by rintro rfl; exact hnT h2.symm
      exact ⟨S, by simp [upd, this, h1], h2⟩

theorem metaTypeIdDecayed_typed (hn : Function.Injective nm) (h0 : ∀ T, nm T ≠ []) {r : Reg} {T : RType}
    (hd : dec T = T) (o : r.Ok false) (t : TOk nm r) : TOk nm (r.metaTypeIdDecayed nm T).1 := by
  unfold metaTypeIdDecayed
  split
  · exact t
  · split
    · exact t
    · rename_i hT
      exact initHolder_typed hn h0 o t hT (by rw [if_pos (.inr hd.symm)])

theorem metaTypeId_typed (hn : Function.Injective nm) (h0 : ∀ T, nm T ≠ []) {r : Reg} (T : RType)
    (o : r.Ok false) (t : TOk nm r) : TOk nm (r.metaTypeId nm T).1 := by
  unfold metaTypeId
  split
  · exact t
  · split
    · exact t
    · rename_i hT
      dsimp only
      split
      · rename_i hD
        exact initHolder_typed hn h0 o t hT (by rw [if_pos (.inr hD)])
      · rename_i hD
        have hD' : ¬ T = dec T := hD
        have t1 := metaTypeIdDecayed_typed hn h0 (dec_dec T) o t
        obtain ⟨o1, i1⟩ := metaTypeIdDecayed_ok (nm := nm) (T := dec T) o
        have hT1 := (metaTypeIdDecayed_holders (nm := nm) (r := r) hD).trans hT
        refine initHolder_typed hn h0 o1 t1 hT1 ?_
        split
        · rename_i hx
          exact i1.void (hx.resolve_right hD')
        · rename_i hx
          exact i1.held (by simpa using fun h => hx (.inl h))

/-! ### history -/

open Classical in
theorem present_snoc (h : List RegOp) (op : RegOp) (S T : RType) : present (h ++ [op]) S T =
    (match op with
    | .regT S' T' functor fn =>
      if SamePair S T S' T' ∧ present h S T = none ∧ ¬ IsVoid S.t ∧ ¬ IsVoid T.t then some (functor, fn)
      else present h S T
    | .unregT S' T' => if SamePair S T S' T' then none else present h S T
    | _ => present h S T) := by
  unfold present
  rw [List.foldl_append]
  cases op <;> rfl

theorem firstFn_snoc (h : List RegOp) (op : RegOp) (S T : RType) (f : Nat) :
    firstFn (h ++ [op]) S T f = (firstFn h S T f).or (firstFn [op] S T f) := by
  simp [firstFn, List.findSome?_append]

theorem present_void (h : List RegOp) (S T : RType) (hv : IsVoid S.t ∨ IsVoid T.t) : present h S T = none := by
  induction h using snocInd with
  | h0 => rfl
  | h1 h op ih =>
    rw [present_snoc, ih]
    cases op <;> simp
    intro _ h1
    rcases hv with hv | hv
    · exact absurd hv h1
    · exact hv

theorem present_congr (h : List RegOp) {S T S' T' : RType} (hS : dec S = dec S') (hT : dec T = dec T') :
    present h S T = present h S' T' := by
  have hv : IsVoid S.t ↔ IsVoid S'.t := by rw [← isVoid_dec, hS, isVoid_dec]
  have hv' : IsVoid T.t ↔ IsVoid T'.t := by rw [← isVoid_dec, hT, isVoid_dec]
  induction h using snocInd with
  | h0 => rfl
  | h1 h op ih =>
    have hp : ∀ a b, SamePair S T a b ↔ SamePair S' T' a b :=
      fun a b => by simp [samePair_iff, hS, hT]
    rw [present_snoc, present_snoc, ih]
    cases op with
    | regT a b f fn =>
      simp only
      by_cases hx : SamePair S' T' a b ∧ present h S' T' = none ∧ ¬ IsVoid S'.t ∧ ¬ IsVoid T'.t
      · rw [if_pos hx, if_pos ⟨(hp a b).2 hx.1, hx.2.1, by rw [hv]; exact hx.2.2.1, by rw [hv']; exact hx.2.2.2⟩]
      · rw [if_neg hx, if_neg]
        rintro ⟨h1, h2, h3, h4⟩
        exact hx ⟨(hp a b).1 h1, h2, by rw [← hv]; exact h3, by rw [← hv']; exact h4⟩
    | unregT a b =>
      simp only
      by_cases hx : SamePair S' T' a b
      · rw [if_pos hx, if_pos ((hp a b).2 hx)]
      · rw [if_neg hx, if_neg fun h => hx ((hp a b).1 h)]
    | _ => rfl

theorem firstFn_congr (h : List RegOp) {S T S' T' : RType} (f : Nat) (hS : dec S = dec S') (hT : dec T = dec T') :
    firstFn h S T f = firstFn h S' T' f := by
  unfold firstFn
  congr 1
  funext op
  cases op <;> simp [samePair_iff, hS, hT]

def slotFor (S T : RType) (f : Nat) : Slot := ⟨(dec S).t, (dec T).t, f⟩

theorem slotFor_eq (S T : RType) (f : Nat) : slotOf S T f = slotFor S T f := rfl

theorem dec_eq_iff {S T : RType} : (dec S).t = (dec T).t ↔ dec S = dec T := by
  simp [dec]

/-- the converter part of the state after the calls `h` -/
structure CItems (h : List RegOp) (r : Reg) : Prop where
  items : ∀ S T a b, r.holders (dec S) = some a → r.holders (dec T) = some b →
    r.items (a, b) = (present h S T).map fun p => slotFor S T p.1
  absent : ∀ S T, r.holders (dec S) = none ∨ r.holders (dec T) = none → present h S T = none
  only : ∀ k s, r.items k = some s → ∃ S T f, s = slotFor S T f ∧ ¬ IsVoid S.t ∧ ¬ IsVoid T.t ∧
    r.holders (dec S) = some k.1 ∧ r.holders (dec T) = some k.2

/-- `g`: the calls that have constructed converters -/
structure COk2 (h g : List RegOp) (r : Reg) : Prop extends CItems h r where
  slots : ∀ S T f, r.slots (slotFor S T f) = match firstFn g S T f with | none => .none | some fn => .live fn

abbrev COk (h : List RegOp) (r : Reg) : Prop := COk2 h h r

theorem COk.init : COk [] init := by
  refine ⟨⟨?_, ?_, ?_⟩, ?_⟩
  · intro S T a b h; cases h
  · intro S T _; rfl
  · intro k s h; cases h
  · intro S T f; rfl

/-- only the type part has grown -/
theorem CItems.grow (hn : Function.Injective nm) {h : List RegOp} {r r' : Reg} (c : CItems h r)
    (t' : TOk nm r') (g : Grows r r') (hi : r'.items = r.items) : CItems h r' := by
  refine ⟨?_, ?_, ?_⟩
  · intro S T a b hS hT
    rw [hi]
    cases hS0 : r.holders (dec S) with
    | some a' =>
      have := g.holders _ _ hS0
      rw [hS] at this; cases this
      cases hT0 : r.holders (dec T) with
      | some b' =>
        have := g.holders _ _ hT0
        rw [hT] at this; cases this
        exact c.items S T _ _ hS0 hT0
      | none =>
        rw [c.absent S T (.inr hT0)]
        cases hk : r.items (a, b) with
        | none => rfl
        | some s =>
          obtain ⟨S', T', f, _, _, _, h1, h2⟩ := c.only _ s hk
          have := t'.inj hn hT (g.holders _ _ h2)
          rw [this, h2] at hT0; cases hT0
    | none =>
      rw [c.absent S T (.inl hS0)]
      cases hk : r.items (a, b) with
      | none => rfl
      | some s =>
        obtain ⟨S', T', f, _, _, _, h1, h2⟩ := c.only _ s hk
        have := t'.inj hn hS (g.holders _ _ h1)
        rw [this, h1] at hS0; cases hS0
  · intro S T hx
    refine c.absent S T (hx.imp ?_ ?_)
    · intro hx
      cases e : r.holders (dec S) with
      | none => rfl
      | some a => rw [g.holders _ _ e] at hx; cases hx
    · intro hx
      cases e : r.holders (dec T) with
      | none => rfl
      | some a => rw [g.holders _ _ e] at hx; cases hx
  · intro k s hk
    rw [hi] at hk
    obtain ⟨S, T, f, h1, h2, h3, h4, h5⟩ := c.only k s hk
    exact ⟨S, T, f, h1, h2, h3, g.holders _ _ h4, g.holders _ _ h5⟩

/-- a call that does not concern converters -/
theorem COk2.skip {h g : List RegOp} {r : Reg} {op : RegOp} (c : COk2 h g r)
    (h1 : ∀ S T, present (h ++ [op]) S T = present h S T) (h2 : ∀ S T f, firstFn [op] S T f = none) :
    COk2 (h ++ [op]) (g ++ [op]) r := by
  refine ⟨⟨?_, ?_, c.only⟩, ?_⟩
  · intro S T; rw [h1]; exact c.items S T
  · intro S T; rw [h1]; exact c.absent S T
  · intro S T f; rw [firstFn_snoc, h2]; simpa using c.slots S T f

/-- what `metaTypeId` gives in a typed program -/
theorem metaTypeId_key {r : Reg} {T : RType} {p : Reg × Nat}
    (o : p.1.Ok false) (t : TOk nm p.1) (i : IdOk r T p) :
    (¬ IsVoid T.t → ∃ i d, p.1.info p.2 = some i ∧ i.decay = d ∧ p.1.holders (dec T) = some d ∧ p.2 ≠ 0) ∧
    (IsVoid T.t → p.2 = 0 ∨ ∃ i, p.1.info p.2 = some i ∧ i.decay = p.2 ∧ p.1.holders T = some p.2) := by
  refine ⟨fun hv => ?_, fun hv => ?_⟩
  · have hv0 : isVoid T = false := by
      cases e : isVoid T with
      | false => rfl
      | true => exact absurd (isVoid_imp e) hv
    have hv1 : isVoid (dec T) = false := by
      cases e : isVoid (dec T) with
      | false => rfl
      | true => exact absurd ((isVoid_dec T).1 e) hv
    have hh := i.held hv0
    obtain ⟨d, h1, h2⟩ := t.held T _ hh
    refine ⟨_, d, h1, rfl, ?_, t.ne_zero o hh⟩
    simp only [hv1, Bool.false_eq_true, false_or] at h2
    split at h2
    · rename_i hT; rw [← hT, h2]; exact hh
    · exact h2
  · cases e : isVoid T with
    | true => exact .inl (i.void e)
    | false =>
      right
      have hh := i.held e
      obtain ⟨d, h1, h2⟩ := t.held T _ hh
      rw [if_pos (.inl ((isVoid_dec T).2 hv))] at h2
      exact ⟨_, h1, h2, hh⟩

/-- the two ids of a typed converter call and what is stored under their decays -/
theorem pair_key (hn : Function.Injective nm) (h0 : ∀ T, nm T ≠ []) {h : List RegOp} {r : Reg} (S T : RType)
    (o : r.Ok false) (t : TOk nm r) (c : CItems h r) :
    ∀ p, p = r.metaTypeId nm S → ∀ q, q = p.1.metaTypeId nm T →
    q.1.Ok false ∧ TOk nm q.1 ∧ CItems h q.1 ∧ Grows r q.1 ∧ q.1.items = r.items ∧ q.1.slots = r.slots ∧
    q.1.convs = r.convs ∧ q.1.Good p.2 ∧ q.1.Good q.2 ∧
    ((isVoid S = true → p.2 = 0) ∧ (isVoid T = true → q.2 = 0)) ∧
    (((p.2 = 0 ∨ q.2 = 0) ∧ (IsVoid S.t ∨ IsVoid T.t)) ∨
     ∃ i j, q.1.info p.2 = some i ∧ q.1.info q.2 = some j ∧ p.2 ≠ 0 ∧ q.2 ≠ 0 ∧
      ((∃ b, q.1.items (i.decay, j.decay) = b ∧ b = none ∧ (IsVoid S.t ∨ IsVoid T.t)) ∨
       (¬ IsVoid S.t ∧ ¬ IsVoid T.t ∧ q.1.holders (dec S) = some i.decay ∧ q.1.holders (dec T) = some j.decay))) := by
  rintro p rfl q rfl
  obtain ⟨o1, i1⟩ := metaTypeId_ok (nm := nm) (T := S) o
  have t1 := metaTypeId_typed hn h0 S o t
  have k1 := metaTypeId_key o1 t1 i1
  generalize r.metaTypeId nm S = p at *
  obtain ⟨o2, i2⟩ := metaTypeId_ok (nm := nm) (T := T) o1
  have t2 := metaTypeId_typed hn h0 T o1 t1
  have k2 := metaTypeId_key o2 t2 i2
  generalize p.1.metaTypeId nm T = q at *
  have g := i1.grows.trans i2.grows
  have c2 := c.grow hn t2 g (i2.items.trans i1.items)
  refine ⟨o2, t2, c2, g, i2.items.trans i1.items, i2.slots.trans i1.slots, i2.convs.trans i1.convs,
    i1.good.mono i2.grows, i2.good, ⟨i1.void, i2.void⟩, ?_⟩
  have none_of : ∀ {X : RType} {k : Nat × Nat} {s : Slot}, IsVoid X.t → q.1.items k = some s →
      (q.1.holders X = some k.1 ∨ q.1.holders X = some k.2) → False := by
    intro X k s hX hk hh
    obtain ⟨S', T', f, _, h1, h2, h3, h4⟩ := c2.only k s hk
    rcases hh with hh | hh
    · have := t2.inj hn hh h3
      rw [this, ← isVoid_dec, dec_dec, isVoid_dec] at hX
      exact h1 hX
    · have := t2.inj hn hh h4
      rw [this, ← isVoid_dec, dec_dec, isVoid_dec] at hX
      exact h2 hX
  by_cases hS : IsVoid S.t
  · rcases k1.2 hS with e | ⟨i, e1, e2, e3⟩
    · exact .inl ⟨.inl e, .inl hS⟩
    · have e1' := i2.grows.info _ _ e1
      have e3' := i2.grows.holders _ _ e3
      have nz : p.2 ≠ 0 := t2.ne_zero o2 e3'
      have : q.2 = 0 ∨ ∃ j, q.1.info q.2 = some j ∧ q.2 ≠ 0 := by
        by_cases hT : IsVoid T.t
        · rcases k2.2 hT with e | ⟨j, f1, f2, f3⟩
          · exact .inl e
          · exact .inr ⟨j, f1, t2.ne_zero o2 f3⟩
        · obtain ⟨j, d, f1, _, _, f4⟩ := k2.1 hT
          exact .inr ⟨j, f1, f4⟩
      rcases this with e | ⟨j, f1, f2⟩
      · exact .inl ⟨.inr e, .inl hS⟩
      · refine .inr ⟨i, j, e1', f1, nz, f2, .inl ⟨_, rfl, ?_, .inl hS⟩⟩
        cases hk : q.1.items (i.decay, j.decay) with
        | none => rfl
        | some s => exact (none_of hS hk (.inl (by rw [e2]; exact e3'))).elim
  · obtain ⟨i, d, e1, rfl, e3, e4⟩ := k1.1 hS
    by_cases hT : IsVoid T.t
    · rcases k2.2 hT with e | ⟨j, f1, f2, f3⟩
      · exact .inl ⟨.inr e, .inr hT⟩
      · refine .inr ⟨i, j, i2.grows.info _ _ e1, f1, e4, t2.ne_zero o2 f3, .inl ⟨_, rfl, ?_, .inr hT⟩⟩
        cases hk : q.1.items (i.decay, j.decay) with
        | none => rfl
        | some s => exact (none_of hT hk (.inr (by rw [f2]; exact f3))).elim
    · obtain ⟨j, d', f1, rfl, f3, f4⟩ := k2.1 hT
      exact .inr ⟨i, j, i2.grows.info _ _ e1, f1, e4, f4, .inr ⟨hS, hT, i2.grows.holders _ _ e3, f3⟩⟩


open Classical in
theorem useSlot_firstFn {r : Reg} {g : List RegOp}
    (c : ∀ S T f, r.slots (slotFor S T f) = match firstFn g S T f with | none => .none | some fn => .live fn)
    (S T : RType) (f fn : Nat) : ∀ X Y x, (r.useSlot (slotOf S T f) fn).slots (slotFor X Y x) =
      match firstFn (g ++ [.regT S T f fn]) X Y x with | none => .none | some fn => .live fn := by
  intro X Y x
  rw [firstFn_snoc]
  have hsame : slotFor X Y x = slotFor S T f ↔ SamePair X Y S T ∧ f = x := by
    rw [samePair_iff, ← dec_eq_iff, ← dec_eq_iff]
    simp [slotFor, eq_comm, and_assoc]
  have h1 : firstFn [.regT S T f fn] X Y x = if SamePair X Y S T ∧ f = x then some fn else none := by
    simp [firstFn]
  rw [h1]
  have hc := c X Y x
  unfold useSlot
  rw [slotFor_eq]
  by_cases hx : SamePair X Y S T ∧ f = x
  · have hx' := hsame.2 hx
    rw [← hx', hc, if_pos hx]
    cases hf : firstFn g X Y x with
    | none => simp [upd]
    | some y => simp [hc, hf]
  · have hx' : slotFor X Y x ≠ slotFor S T f := fun e => hx (hsame.1 e)
    rw [if_neg hx, Option.or_none]
    split
    · simp [upd, hx', hc]
    · exact hc

open Classical in
/-- one typed call -/
theorem typed_step2 (hn : Function.Injective nm) (h0 : ∀ T, nm T ≠ []) {h g : List RegOp} {r r' : Reg} {op : RegOp}
    {out : RegOut} (o : r.Ok false) (t : TOk nm r) (c : COk2 h g r) (hc : TypedCall op)
    (e : r.step nm op = .val (r', out)) : TOk nm r' ∧ COk2 (h ++ [op]) (g ++ [op]) r' ∧ ConvAnswer2 h g op out := by
  have hr := (o.phases rfl).1
  have t2 : ∀ {r : Reg}, TOk nm r → TOk nm r.touch.touchC := by
    intro r t; exact ⟨by simpa using t.held, by simpa using t.names⟩
  have tt : ∀ {r : Reg}, TOk nm r → TOk nm r.touch := by
    intro r t; exact ⟨by simpa using t.held, by simpa using t.names⟩
  have c2 : ∀ {h g : List RegOp} {r : Reg}, COk2 h g r → COk2 h g r.touch.touchC := by
    intro h g r c
    exact ⟨⟨by simpa using c.items, by simpa using c.absent, by simpa using c.only⟩, by simpa using c.slots⟩
  have ct : ∀ {h g : List RegOp} {r : Reg}, COk2 h g r → COk2 h g r.touch := by
    intro h g r c
    exact ⟨⟨by simpa using c.items, by simpa using c.absent, by simpa using c.only⟩, by simpa using c.slots⟩
  cases op with
  | lookup n =>
    have e' : r.step nm (.lookup n) = .val (r.touch, .id (r.touch.hd (r.hd (r.getTypeInfo n)))) := by
      simp [step, ofName_eq, typeId_eq]
    rw [e'] at e; cases e
    exact ⟨tt t, (ct c).skip (by simp [present_snoc]) (by simp [firstFn]), trivial⟩
  | idOf T =>
    simp only [step] at e; cases e
    obtain ⟨o1, i1⟩ := metaTypeId_ok (nm := nm) (T := T) o
    have t1 := metaTypeId_typed hn h0 T o t
    exact ⟨t1, (COk2.mk (c.toCItems.grow hn t1 i1.grows i1.items) (by rw [i1.slots]; exact c.slots)).skip (by simp [present_snoc]) (by simp [firstFn]), trivial⟩
  | hasT S T =>
    simp only [step, hasConverterT, hasConverter, hasConverterH] at e
    obtain ⟨o1, t1, c1, g1, hi, hs, hcv, ga, gb, vd0, hk⟩ := pair_key hn h0 S T o t c.toCItems _ rfl _ rfl
    replace c1 : COk2 h g _ := ⟨c1, by rw [hs]; exact c.slots⟩
    generalize r.metaTypeId nm S = p at *
    generalize p.1.metaTypeId nm T = q at *
    rw [withList_eq] at e
    rcases withList_ok false (fun r k => .val (r, (r.items k).isSome)) ga gb with
      ⟨e', e0⟩ | ⟨i, j, h1, h2, _, _, _, _, e'⟩
    · rw [e'] at e; simp only [Res.bind] at e; cases e
      refine ⟨tt t1, (ct c1).skip (by simp [present_snoc]) (by simp [firstFn]), ?_⟩
      have : IsVoid S.t ∨ IsVoid T.t := by
        rcases hk with hk | ⟨i, j, _, _, nz1, nz2, _⟩
        · exact hk.2
        · rcases e0 with e0 | e0 | e0 | e0
          · exact absurd e0 nz1
          · exact absurd e0 nz2
          · exact absurd e0 (o1.phases rfl).1
          · exact absurd e0 (o1.phases rfl).2
      simp [ConvAnswer2, present_void h S T this]
    · rw [e'] at e; simp only [Res.bind] at e; cases e
      refine ⟨t2 t1, (c2 c1).skip (by simp [present_snoc]) (by simp [firstFn]), ?_⟩
      simp only [ConvAnswer2, touchC_items, touch_items]
      rcases hk with ⟨hk, _⟩ | ⟨i', j', f1, f2, _, _, hk⟩
      · rcases hk with hk | hk
        · rw [hk, o1.info_pos] at h1; cases h1
        · rw [hk, o1.info_pos] at h2; cases h2
      · rw [h1] at f1; rw [h2] at f2; cases f1; cases f2
        rcases hk with ⟨b, hb, hb', hv⟩ | ⟨_, _, hS, hT⟩
        · rw [hb, hb', present_void h S T hv]; rfl
        · rw [c1.items S T _ _ hS hT]; simp
  | convertT S T =>
    simp only [step, Reg.convertT, Reg.convert, convertH] at e
    obtain ⟨o1, t1, c1, g1, hi, hs, hcv, ga, gb, vd0, hk⟩ := pair_key hn h0 S T o t c.toCItems _ rfl _ rfl
    replace c1 : COk2 h g _ := ⟨c1, by rw [hs]; exact c.slots⟩
    generalize r.metaTypeId nm S = p at *
    generalize p.1.metaTypeId nm T = q at *
    rw [withList_eq] at e
    rcases withList_ok none _ ga gb with ⟨e', e0⟩ | ⟨i, j, h1, h2, _, _, _, _, e'⟩
    · rw [e'] at e; simp only [Res.bind] at e; cases e
      refine ⟨tt t1, (ct c1).skip (by simp [present_snoc]) (by simp [firstFn]), ?_⟩
      have : IsVoid S.t ∨ IsVoid T.t := by
        rcases hk with hk | ⟨i, j, _, _, nz1, nz2, _⟩
        · exact hk.2
        · rcases e0 with e0 | e0 | e0 | e0
          · exact absurd e0 nz1
          · exact absurd e0 nz2
          · exact absurd e0 (o1.phases rfl).1
          · exact absurd e0 (o1.phases rfl).2
      simp [ConvAnswer2, present_void h S T this]
    · rw [e'] at e
      simp only [touchC_items, touch_items, touchC_slots, touch_slots] at e
      have key : q.1.items (i.decay, j.decay) = (present h S T).map fun p => slotFor S T p.1 := by
        rcases hk with ⟨hk, _⟩ | ⟨i', j', f1, f2, _, _, hk⟩
        · rcases hk with hk | hk
          · rw [hk, o1.info_pos] at h1; cases h1
          · rw [hk, o1.info_pos] at h2; cases h2
        · rw [h1] at f1; rw [h2] at f2; cases f1; cases f2
          rcases hk with ⟨b, hb, hb', hv⟩ | ⟨_, _, hS, hT⟩
          · rw [hb, hb', present_void h S T hv]; rfl
          · exact c1.items S T _ _ hS hT
      rw [key] at e
      cases hp : present h S T with
      | none =>
        simp only [hp, Option.map_none, Res.bind] at e; cases e
        exact ⟨t2 t1, (c2 c1).skip (by simp [present_snoc]) (by simp [firstFn]), by simp [ConvAnswer2, hp]⟩
      | some x =>
        simp only [hp, Option.map_some, c1.slots] at e
        cases hf : firstFn g S T x.1 with
        | none => simp [hf, Res.bind] at e
        | some fn =>
          simp only [hf, Res.bind] at e; cases e
          exact ⟨t2 t1, (c2 c1).skip (by simp [present_snoc]) (by simp [firstFn]), by simp [ConvAnswer2, hp, hf]⟩
  | unregT S T =>
    simp only [step, unregisterConverterT, unregisterConverter] at e
    obtain ⟨o1, t1, c1, g1, hi, hs, hcv, ga, gb, vd0, hk⟩ := pair_key hn h0 S T o t c.toCItems _ rfl _ rfl
    replace c1 : COk2 h g _ := ⟨c1, by rw [hs]; exact c.slots⟩
    generalize r.metaTypeId nm S = p at *
    generalize p.1.metaTypeId nm T = q at *
    rw [withList_eq] at e
    have vd : (IsVoid S.t ∨ IsVoid T.t) → ∀ X Y, present (h ++ [.unregT S T]) X Y = present h X Y := by
      intro hv X Y
      rw [present_snoc]
      simp only
      split
      · rename_i hp
        rw [samePair_iff] at hp
        rw [present_void h X Y]
        rw [← isVoid_dec, hp.1, isVoid_dec, ← isVoid_dec Y, hp.2, isVoid_dec]
        exact hv
      · rfl
    rcases withList_ok () _ ga gb with ⟨e', e0⟩ | ⟨i, j, h1, h2, _, _, _, _, e'⟩
    · rw [e'] at e; simp only [Res.bind] at e; cases e
      have : IsVoid S.t ∨ IsVoid T.t := by
        rcases hk with hk | ⟨i, j, _, _, nz1, nz2, _⟩
        · exact hk.2
        · rcases e0 with e0 | e0 | e0 | e0
          · exact absurd e0 nz1
          · exact absurd e0 nz2
          · exact absurd e0 (o1.phases rfl).1
          · exact absurd e0 (o1.phases rfl).2
      exact ⟨tt t1, (ct c1).skip (vd this) (by simp [firstFn]), trivial⟩
    · rw [e'] at e; simp only [Res.bind] at e; cases e
      refine ⟨⟨by simpa using t1.held, by simpa using t1.names⟩, ?_, trivial⟩
      rcases hk with ⟨hk, _⟩ | ⟨i', j', f1, f2, _, _, hk⟩
      · rcases hk with hk | hk
        · rw [hk, o1.info_pos] at h1; cases h1
        · rw [hk, o1.info_pos] at h2; cases h2
      rw [h1] at f1; rw [h2] at f2; cases f1; cases f2
      rcases hk with ⟨b, hb, hb', hv⟩ | ⟨_, _, hS, hT⟩
      · have e : upd q.1.touch.touchC.items (i.decay, j.decay) none = q.1.items := by
          funext k
          simp only [upd, touchC_items, touch_items]
          split
          · rename_i hk; rw [hk, hb, hb']
          · rfl
        have := (c1.skip (vd hv) (by simp [firstFn]))
        refine ⟨⟨?_, ?_, ?_⟩, ?_⟩
        · simp only [e]; simpa using this.items
        · simpa using this.absent
        · simp only [e]; simpa using this.only
        · simpa using this.slots
      · refine ⟨⟨?_, ?_, ?_⟩, ?_⟩
        · intro X Y a b hX hY
          simp only [touchC_holders, touch_holders] at hX hY
          rw [present_snoc]
          simp only [upd, touchC_items, touch_items, Prod.mk.injEq]
          by_cases hp : SamePair X Y S T
          · rw [if_pos hp, if_pos]
            · rfl
            · rw [samePair_iff] at hp
              rw [hp.1, hS] at hX; rw [hp.2, hT] at hY
              cases hX; cases hY; exact ⟨rfl, rfl⟩
          · rw [if_neg hp, if_neg]
            · exact c1.items X Y a b hX hY
            · rintro ⟨rfl, rfl⟩
              exact hp (samePair_iff.2 ⟨t1.inj hn hX hS, t1.inj hn hY hT⟩)
        · intro X Y hx
          simp only [touchC_holders, touch_holders] at hx
          rw [present_snoc]
          simp only
          split
          · rfl
          · exact c1.absent X Y hx
        · intro k s hk
          simp only [upd, touchC_items, touch_items] at hk
          split at hk
          · cases hk
          · simpa using c1.only k s hk
        · intro X Y f
          rw [firstFn_snoc]
          simpa [firstFn] using c1.slots X Y f
  | regT S T f fn =>
    simp only [step, registerConverterT, registerConverter] at e
    -- the slot
    have u1 : (r.useSlot (slotOf S T f) fn).Ok false := (useSlot_ok o (o.noDead rfl _)).1
    have ug : Grows r (r.useSlot (slotOf S T f) fn) := (useSlot_ok o (o.noDead rfl _)).2.1
    have ui := useSlot_items r (slotOf S T f) fn
    have uh := useSlot_holders r (slotOf S T f) fn
    have un : (r.useSlot (slotOf S T f) fn).names = r.names := by unfold useSlot; split <;> rfl
    have uinf : (r.useSlot (slotOf S T f) fn).info = r.info := by unfold useSlot; split <;> rfl
    have us := useSlot_firstFn c.slots S T f fn
    generalize r.useSlot (slotOf S T f) fn = r1 at *
    have t1 : TOk nm r1 := ⟨by rw [uh, uinf]; exact t.held, by rw [uh, un]; exact t.names⟩
    have c1 : CItems h r1 := ⟨by rw [uh, ui]; exact c.items, by rw [uh]; exact c.absent, by rw [uh, ui]; exact c.only⟩
    obtain ⟨o2, t2', c2', g2, hi, hs, hcv, ga, gb, vd0, hk⟩ := pair_key hn h0 (dec S) (dec T) u1 t1 c1 _ rfl _ rfl
    simp only [show ∀ X : RType, (⟨.none, X.t.fullDecay⟩ : RType) = dec X from fun _ => rfl] at e
    generalize r1.metaTypeId nm (dec S) = p at *
    generalize p.1.metaTypeId nm (dec T) = q at *
    rw [withList_eq] at e
    have vS : IsVoid (dec S).t ↔ IsVoid S.t := by rw [← isVoid_dec, dec_dec, isVoid_dec]
    have vT : IsVoid (dec T).t ↔ IsVoid T.t := by rw [← isVoid_dec, dec_dec, isVoid_dec]
    rw [vS, vT, dec_dec, dec_dec] at hk
    have us' : ∀ X Y x, q.1.slots (slotFor X Y x) =
        match firstFn (g ++ [.regT S T f fn]) X Y x with | none => .none | some fn => .live fn := by
      rw [hs]; exact us
    have same : (present h S T ≠ none ∨ IsVoid S.t ∨ IsVoid T.t) →
        ∀ X Y, present (h ++ [.regT S T f fn]) X Y = present h X Y := by
      intro hv X Y
      rw [present_snoc]
      simp only
      split
      · rename_i hx
        obtain ⟨h1, h2, h3, h4⟩ := hx
        rw [samePair_iff] at h1
        rcases hv with hv | hv | hv
        · exact absurd (by rw [← present_congr h h1.1 h1.2]; exact h2) hv
        · rw [← isVoid_dec, ← h1.1, isVoid_dec] at hv; exact absurd hv h3
        · rw [← isVoid_dec, ← h1.2, isVoid_dec] at hv; exact absurd hv h4
      · rfl
    rcases withList_ok false _ ga gb with ⟨e', e0⟩ | ⟨i, j, h1, h2, _, _, _, _, e'⟩
    · rw [e'] at e; simp only [Res.bind] at e; cases e
      have hv : IsVoid S.t ∨ IsVoid T.t := by
        rcases hk with hk | ⟨i, j, _, _, nz1, nz2, _⟩
        · exact hk.2
        · rcases e0 with e0 | e0 | e0 | e0
          · exact absurd e0 nz1
          · exact absurd e0 nz2
          · exact absurd e0 (o2.phases rfl).1
          · exact absurd e0 (o2.phases rfl).2
      refine ⟨tt t2', ⟨⟨?_, ?_, by simpa using c2'.only⟩, by simpa using us'⟩, false, rfl, ?_⟩
      · intro X Y; rw [same (.inr hv)]; simpa using c2'.items X Y
      · intro X Y; rw [same (.inr hv)]; simpa using c2'.absent X Y
      · simp only [Bool.false_eq_true, false_iff]
        rintro ⟨_, h3, h4⟩
        exact hv.elim h3 h4
    · rw [e'] at e
      rcases hk with ⟨hk, _⟩ | ⟨i', j', f1, f2, nz1, nz2, hk⟩
      · rcases hk with hk | hk
        · rw [hk, o2.info_pos] at h1; cases h1
        · rw [hk, o2.info_pos] at h2; cases h2
      rw [h1] at f1; rw [h2] at f2; cases f1; cases f2
      rcases hk with ⟨b, hb, hb', hv⟩ | ⟨v1, v2, hS, hT⟩
      · -- decayed types are never cv `void`
        exfalso
        rcases hv with hv | hv
        · exact nz1 (vd0.1 ((isVoid_dec S).2 hv))
        · exact nz2 (vd0.2 ((isVoid_dec T).2 hv))
      · have key := c2'.items S T _ _ hS hT
        simp only [touchC_items, touch_items, key] at e
        cases hp : present h S T with
        | some x =>
          simp only [hp, Option.map_some, Option.isSome_some, if_true, Res.bind] at e; cases e
          have hne : present h S T ≠ none := by rw [hp]; nofun
          refine ⟨t2 t2', ⟨⟨?_, ?_, by simpa using c2'.only⟩, by simpa using us'⟩, false, rfl, ?_⟩
          · intro X Y; rw [same (.inl hne)]; simpa using c2'.items X Y
          · intro X Y; rw [same (.inl hne)]; simpa using c2'.absent X Y
          · simp [hp]
        | none =>
          simp only [hp, Option.map_none, Option.isSome_none, Bool.false_eq_true, if_false, Res.bind] at e; cases e
          refine ⟨⟨by simpa using t2'.held, by simpa using t2'.names⟩, ⟨⟨?_, ?_, ?_⟩, by simpa using us'⟩, true, rfl,
            by simp [hp, v1, v2]⟩
          · intro X Y a b hX hY
            simp only [touchC_holders, touch_holders] at hX hY
            rw [present_snoc]
            simp only [upd, Prod.mk.injEq]
            by_cases hx : SamePair X Y S T
            · have hx' := samePair_iff.1 hx
              have e1 : present h X Y = none := by rw [present_congr h hx'.1 hx'.2, hp]
              have e2 : ¬ IsVoid X.t := by rw [← isVoid_dec, hx'.1, isVoid_dec]; exact v1
              have e3 : ¬ IsVoid Y.t := by rw [← isVoid_dec, hx'.2, isVoid_dec]; exact v2
              rw [if_pos (c := _ ∧ _ ∧ _) ⟨hx, e1, e2, e3⟩, if_pos]
              · simp [slotFor_eq, slotFor, hx'.1, hx'.2]
              · rw [hx'.1, hS] at hX; rw [hx'.2, hT] at hY
                cases hX; cases hY; exact ⟨rfl, rfl⟩
            · rw [if_neg (c := _ ∧ _ ∧ _) (fun h => hx h.1), if_neg]
              · exact c2'.items X Y a b hX hY
              · rintro ⟨rfl, rfl⟩
                exact hx (samePair_iff.2 ⟨t2'.inj hn hX hS, t2'.inj hn hY hT⟩)
          · intro X Y hx
            simp only [touchC_holders, touch_holders] at hx
            rw [present_snoc]
            simp only
            split
            · rename_i h3
              have h3' := samePair_iff.1 h3.1
              rw [h3'.1, h3'.2, hS, hT] at hx
              rcases hx with hx | hx <;> cases hx
            · exact c2'.absent X Y hx
          · intro k s hks
            simp only [upd, touchC_holders, touch_holders] at hks ⊢
            split at hks
            · rename_i hk
              cases hks
              exact ⟨S, T, f, rfl, v1, v2, by rw [hk]; exact hS, by rw [hk]; exact hT⟩
            · exact c2'.only k s hks
  | _ => cases hc


open Classical in
theorem convAnswer2_self {h : List RegOp} {op : RegOp} {out : RegOut} (a : ConvAnswer2 h h op out) : ConvAnswer h op out := by
  cases op <;> exact a

open Classical in
theorem typed_step (hn : Function.Injective nm) (h0 : ∀ T, nm T ≠ []) {h : List RegOp} {r r' : Reg} {op : RegOp}
    {out : RegOut} (o : r.Ok false) (t : TOk nm r) (c : COk h r) (hc : TypedCall op)
    (e : r.step nm op = .val (r', out)) : TOk nm r' ∧ COk (h ++ [op]) r' ∧ ConvAnswer h op out :=
  let x := typed_step2 hn h0 o t c hc e
  ⟨x.1, x.2.1, convAnswer2_self x.2.2⟩

/-- typed calls are legal -/
theorem typed_legal {h : List RegOp} {outs : List RegOut} (hc : ∀ op ∈ h, TypedCall op) : LegalProgram h outs := by
  intro i hi
  have h1 := hc _ (List.getElem_mem hi)
  cases e : h[i] with
  | regT S T f fn =>
    intro hd
    exact hc _ (List.mem_of_mem_take hd)
  | _ => first | trivial | (rw [e] at h1; cases h1)

theorem typed_run (hn : Function.Injective nm) (h0 : ∀ T, nm T ≠ []) (h : List RegOp) (hc : ∀ op ∈ h, TypedCall op) :
    ∀ {r outs}, init.run nm h = .val (r, outs) → r.Ok false ∧ TOk nm r ∧ COk h r := by
  induction h using snocInd with
  | h0 => intro r outs e; simp only [run] at e; cases e; exact ⟨Ok.init, TOk.init, COk.init⟩
  | h1 h op ih =>
    intro r outs e
    have hd : decide (RegOp.destroy ∈ h ++ [op]) = false := by
      rw [decide_eq_false_iff_not]; intro hd; exact hc _ hd
    have ok := (run_ok _ e (typed_legal hc)).1
    rw [hd] at ok
    obtain ⟨r1, outs1, o, e1, e2, rfl⟩ := run_snoc_val e
    obtain ⟨o1, t1, c1⟩ := ih (fun x hx => hc x (by simp [hx])) e1
    obtain ⟨t2, c2, _⟩ := typed_step hn h0 o1 t1 c1 (hc op (by simp)) e2
    exact ⟨ok, t2, c2⟩

end Reg
end Rtti
