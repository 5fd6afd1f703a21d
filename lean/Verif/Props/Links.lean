import Verif.Lemmas.Links
import Verif.Props.Circles
/-! C26 after any calls: also when classes are declared as bases of themselves or of one another. -/
set_option autoImplicit false
namespace Rtti.Props
open Rtti Spec World

private theorem found {w : World} (i : Loose w) (h : Links w) {t : TypeId} {p : Ptr} (e : w.metaClass t = some p) :
    w.find t = some p ∧ w.kind p = some .cls ∧ (w.cls p).typeId = t :=
  ⟨by simp [World.find, (i.mc t p e).1, e], (i.mc t p e).2, h.tid t p e⟩

private theorem mem_index {A : Type} {l : List A} {a : A} : a ∈ l ↔ ∃ (k : Nat) (hk : k < l.length), l[k] = a := List.mem_iff_getElem

/-- C26: the lists mirror each other after any calls. -/
theorem C26_any_mirror (ops : List Op) {d b : Ptr} (hd : (afterCalls ops).kind d = some .cls) (hb : (afterCalls ops).kind b = some .cls) :
    DeclaredBase (afterCalls ops) d b ↔ ListedDerived (afterCalls ops) b d := by
  have i := Loose.calls ops
  have hl := Listed.calls ops
  have h := Links.calls ops
  generalize afterCalls ops = w at *
  unfold DeclaredBase ListedDerived baseClassCount baseClass derivedClassCount derivedClass
  constructor
  · rintro ⟨k, hk, e⟩
    rw [dif_pos hk] at e
    obtain ⟨b', h1, h2⟩ := h.bases d hd _ (List.getElem_mem hk)
    rw [(found i h h1).1] at e
    cases e
    obtain ⟨j, hj, e⟩ := mem_index.1 h2
    exact ⟨j, hj, by rw [dif_pos hj, e]; exact (found i h (hl d hd)).1⟩
  · rintro ⟨k, hk, e⟩
    rw [dif_pos hk] at e
    obtain ⟨d', h1, h2⟩ := h.derived b hb _ (List.getElem_mem hk)
    rw [(found i h h1).1] at e
    cases e
    obtain ⟨j, hj, e⟩ := mem_index.1 h2
    have hj' : j < (w.cls d).bases.length := by simpa using hj
    refine ⟨j, hj', ?_⟩
    rw [dif_pos hj', show ((w.cls d).bases[j]).1 = (w.cls b).typeId by simpa using e]
    exact (found i h (hl b hb)).1

private theorem nodup_inj {A : Type} {l : List A} (hl : l.Nodup) {i j : Nat} (hi : i < l.length) (hj : j < l.length) (e : l[i] = l[j]) : i = j := by
  rw [List.Nodup, List.pairwise_iff_getElem] at hl
  rcases Nat.lt_trichotomy i j with hlt | heq | hgt
  · exact absurd e (hl i j hi hj hlt)
  · exact heq
  · exact absurd e.symm (hl j i hj hi hgt)

private theorem valid0 (ops : List Op) : (afterCalls ops).valid 0 = false := by
  unfold afterCalls
  have stored : ∀ (w : World) o k n t look stored, (∀ w p, (stored w p : World).valid = w.valid) →
      (w.getOrCreate o k n t look stored).1.valid = w.valid := by
    intro w o k n t look stored hs
    unfold World.getOrCreate
    split
    · dsimp only
      split
      · rw [hs]; rfl
      · rfl
    · rfl
  have key : ∀ (ops : List Op) (w : World), w.valid 0 = false → (ops.foldl (fun w op => (w.step op).1) w).valid 0 = false := by
    intro ops
    induction ops with
    | nil => exact fun _ h => h
    | cons op ops ih =>
      intro w h
      refine ih _ ?_
      cases op with
      | registerType t =>
        simp only [World.step]
        split
        · exact h
        · rename_i ht; show upd w.valid t true 0 = false; rw [upd_ne _ _ (Ne.symm ht)]; exact h
      | addBase p t c =>
        simp only [World.step]
        split
        · have : (w.addBaseClass p t c).1.valid = w.valid := by
            unfold addBaseClass
            split
            · rfl
            · split
              · rfl
              · simp only [addDerivedClass]
                split
                · rfl
                · split <;> rfl
          split <;> (rename_i e; rw [e] at this; simp only at this; rw [this]; exact h)
        · exact h
      | _ =>
        simp only [World.step, createNamespace, createEnum, createClass, createMethod, createProperty, createConstructor]
        repeat' split
        all_goals first | exact h | (rw [stored]; exact h; intro _ _; rfl)
  exact key ops _ rfl

/-- C26: after any calls every listed base and derived class is a registered class, each is listed once, and an index out of range gives
    null. -/
theorem C26_any_lists (ops : List Op) {c : Ptr} (hc : (afterCalls ops).kind c = some .cls) :
    (∀ i, i < (afterCalls ops).baseClassCount c → ∃ b, (afterCalls ops).baseClass c i = some b ∧ (afterCalls ops).kind b = some .cls) ∧
    (∀ i, i < (afterCalls ops).derivedClassCount c → ∃ d, (afterCalls ops).derivedClass c i = some d ∧ (afterCalls ops).kind d = some .cls) ∧
    (∀ i j, i < (afterCalls ops).baseClassCount c → j < (afterCalls ops).baseClassCount c →
      (afterCalls ops).baseClass c i = (afterCalls ops).baseClass c j → i = j) ∧
    (∀ i j, i < (afterCalls ops).derivedClassCount c → j < (afterCalls ops).derivedClassCount c →
      (afterCalls ops).derivedClass c i = (afterCalls ops).derivedClass c j → i = j) ∧
    (∀ i, ¬ i < (afterCalls ops).baseClassCount c → (afterCalls ops).baseClass c i = none) ∧
    (∀ i, ¬ i < (afterCalls ops).derivedClassCount c → (afterCalls ops).derivedClass c i = none) := by
  have i := Loose.calls ops
  have h := Links.calls ops
  have h0 : (afterCalls ops).find 0 = none := by simp [World.find, valid0 ops]
  generalize afterCalls ops = w at *
  have hb : ∀ k (hk : k < (w.cls c).bases.length), ∃ b, w.find (w.cls c).bases[k].1 = some b ∧ w.kind b = some .cls ∧
      (w.cls b).typeId = (w.cls c).bases[k].1 := by
    intro k hk
    obtain ⟨b, h1, _⟩ := h.bases c hc _ (List.getElem_mem hk)
    exact ⟨b, found i h h1⟩
  have hd : ∀ k (hk : k < (w.cls c).derived.length), ∃ b, w.find (w.cls c).derived[k] = some b ∧ w.kind b = some .cls ∧
      (w.cls b).typeId = (w.cls c).derived[k] := by
    intro k hk
    obtain ⟨b, h1, _⟩ := h.derived c hc _ (List.getElem_mem hk)
    exact ⟨b, found i h h1⟩
  unfold baseClassCount derivedClassCount baseClass derivedClass
  refine ⟨fun k hk => ?_, fun k hk => ?_, fun k j hk hj e => ?_, fun k j hk hj e => ?_, fun k hk => ?_, fun k hk => ?_⟩
  · obtain ⟨b, h1, h2, _⟩ := hb k hk; exact ⟨b, by rw [dif_pos hk]; exact h1, h2⟩
  · obtain ⟨b, h1, h2, _⟩ := hd k hk; exact ⟨b, by rw [dif_pos hk]; exact h1, h2⟩
  · rw [dif_pos hk, dif_pos hj] at e
    obtain ⟨b, h1, _, h2⟩ := hb k hk
    obtain ⟨b', h1', _, h2'⟩ := hb j hj
    rw [h1, h1'] at e
    cases e
    refine nodup_inj (h.bnodup c hc) (by simpa using hk) (by simpa using hj) ?_
    simp only [List.getElem_map]
    rw [← h2, ← h2']
  · rw [dif_pos hk, dif_pos hj] at e
    obtain ⟨b, h1, _, h2⟩ := hd k hk
    obtain ⟨b', h1', _, h2'⟩ := hd j hj
    rw [h1, h1'] at e
    cases e
    exact nodup_inj (h.dnodup c hc) hk hj (by rw [← h2, ← h2'])
  · rw [dif_neg hk]; exact h0
  · rw [dif_neg hk]; exact h0

/-- C26: the order is that of the first declarations, after any calls and for any class and base (also a class and itself). A
    declaration appends to the two lists, a repeated one changes nothing and keeps the first cast function; no other list changes. -/
theorem C26_any_declaration (ops : List Op) {d b : Ptr} {t : TypeId} (hd : (afterCalls ops).kind d = some .cls)
    (hb : (afterCalls ops).find t = some b) (c : Caster) :
    let w := afterCalls ops
    let w' := afterCalls (ops ++ [.addBase d t c])
    (t ∈ (w.cls d).bases.map (·.1) → ∀ q, (w'.cls q).bases = (w.cls q).bases ∧ (w'.cls q).derived = (w.cls q).derived) ∧
    (t ∉ (w.cls d).bases.map (·.1) →
      (w'.cls d).bases = (w.cls d).bases ++ [(t, c)] ∧ (w'.cls b).derived = (w.cls b).derived ++ [(w.cls d).typeId] ∧
      (∀ q, q ≠ d → (w'.cls q).bases = (w.cls q).bases) ∧ (∀ q, q ≠ b → (w'.cls q).derived = (w.cls q).derived)) := by
  have i := Loose.calls ops
  have hl := Listed.calls ops
  have h := Links.calls ops
  have e : afterCalls (ops ++ [.addBase d t c]) = ((afterCalls ops).step (.addBase d t c)).1 := by
    simp [afterCalls, List.foldl_append]
  rw [e]
  generalize afterCalls ops = w at *
  obtain ⟨-, -, -, -, e3⟩ := addBase_cls i hl hd hb c
  dsimp only
  have hm : w.metaClass t = some b := by
    unfold World.find at hb
    split at hb
    · exact hb
    · cases hb
  have hbk := (i.mc _ _ hm).2
  have hbt := h.tid _ _ hm
  have hany : ((w.cls d).bases.any fun it => t == it.1) = true ↔ t ∈ (w.cls d).bases.map (·.1) := by
    simp only [List.any_eq_true, List.mem_map, beq_iff_eq]
    constructor
    · rintro ⟨x, hx, e⟩; exact ⟨x, hx, e.symm⟩
    · rintro ⟨x, hx, e⟩; exact ⟨x, hx, e.symm⟩
  have hmir : t ∈ (w.cls d).bases.map (·.1) ↔ (w.cls d).typeId ∈ (w.cls b).derived := by
    constructor
    · intro ht
      obtain ⟨x, hx, hx2⟩ := List.mem_map.1 ht
      obtain ⟨q, hq1, hq2⟩ := h.bases d hd x hx
      rw [hx2, hm] at hq1
      cases hq1
      exact hq2
    · intro ht
      obtain ⟨q, hq1, hq2⟩ := h.derived b hbk _ ht
      rw [hl d hd] at hq1
      cases hq1
      rw [← hbt]; exact hq2
  refine ⟨fun ht q => ?_, fun ht => ?_⟩
  · rw [(e3 q).2.1, (e3 q).2.2]
    constructor
    · split
      · rename_i e; subst e; rw [basesAdd, if_pos (hany.2 ht)]
      · rfl
    · split
      · rename_i e; subst e; rw [derivedAdd, if_pos (by simpa using hmir.1 ht)]
      · rfl
  · refine ⟨?_, ?_, fun q hq => ?_, fun q hq => ?_⟩
    · rw [(e3 d).2.1, if_pos rfl, basesAdd, if_neg fun x => ht (hany.1 x)]
    · rw [(e3 b).2.2, if_pos rfl, derivedAdd, if_neg fun x => ht (hmir.2 (by simpa using x))]
    · rw [(e3 q).2.1, if_neg hq]
    · rw [(e3 q).2.2, if_neg hq]

/-- C26: after any calls, a call that declares no base of an existing class, and a declaration that is refused, leave the lists of every
    existing class alone. -/
theorem C26_any_other_calls (ops : List Op) (op : Op) {q : Ptr} (hq : (afterCalls ops).kind q = some .cls)
    (ho : ∀ d t c, op = .addBase d t c → (afterCalls ops).kind d ≠ some .cls ∨ (afterCalls ops).find t = none) :
    (afterCalls (ops ++ [op])).cls q = (afterCalls ops).cls q := by
  have e : afterCalls (ops ++ [op]) = ((afterCalls ops).step op).1 := by simp [afterCalls, List.foldl_append]
  rw [e]
  by_cases h : ∃ d t c, op = .addBase d t c
  · obtain ⟨d, t, c, rfl⟩ := h
    rw [addBase_refused c (ho d t c rfl)]
  · exact (Grown.step (Loose.calls ops) op fun d t c e => h ⟨d, t, c, e⟩).same q hq

/-- C31 after any calls: a base declaration is refused with the documented exception exactly if the type is not registered or no class is,
    and then changes nothing at all. -/
theorem C31_any (ops : List Op) {d : Ptr} (hd : (afterCalls ops).kind d = some .cls) (t : TypeId) (c : Caster) :
    let w := afterCalls ops
    (((w.step (.addBase d t c)).2 = .throw .invalidTypeId ↔ w.valid t = false) ∧
      ((w.step (.addBase d t c)).2 = .throw .unregisteredClass ↔ w.valid t = true ∧ w.find t = none) ∧
      ((w.step (.addBase d t c)).2 = .val none ↔ ∃ b, w.find t = some b)) ∧
    ((w.step (.addBase d t c)).2 ≠ .val none → (w.step (.addBase d t c)).1 = w) := by
  have i := Loose.calls ops
  have hl := Listed.calls ops
  generalize afterCalls ops = w at *
  dsimp only
  cases hf : w.find t with
  | some b =>
    have hv : w.valid t = true := by
      unfold World.find at hf
      split at hf
      · assumption
      · cases hf
    obtain ⟨e, -⟩ := addBase_cls i hl hd hf c
    rw [e, hv]
    exact ⟨⟨by simp, by simp, by simp⟩, fun h => absurd rfl h⟩
  | none =>
    refine ⟨?_, fun _ => addBase_refused c (.inr hf)⟩
    cases hv : w.valid t with
    | false =>
      have : (w.step (.addBase d t c)).2 = .throw .invalidTypeId := by simp [World.step, hd, addBaseClass, hv]
      rw [this]
      exact ⟨by simp, by simp, by simp⟩
    | true =>
      have hm : w.metaClass t = none := by simpa [World.find, hv] using hf
      have : (w.step (.addBase d t c)).2 = .throw .unregisteredClass := by simp [World.step, hd, addBaseClass, hv, hm]
      rw [this]
      exact ⟨by simp, by simp, by simp⟩

-- `A` its own base, `A` and `B` bases of one another
example : let w := afterCalls [.registerType 1, .registerType 2, .createClass 1 ['A'] 1, .createClass 1 ['B'] 2, .addBase 2 1 id,
      .addBase 2 2 id, .addBase 3 1 id, .addBase 2 1 id]
    w.kind 2 = some .cls ∧ w.kind 3 = some .cls ∧ [w.baseClass 2 0, w.baseClass 2 1, w.baseClass 2 2, w.baseClass 3 0] = [some 2, some 3, none, some 2] ∧
    [w.derivedClass 2 0, w.derivedClass 2 1, w.derivedClass 3 0, w.derivedClass 3 1] = [some 2, some 3, some 2, none] := by decide
-- the hypotheses of `C26_any_declaration`, for a class and itself, of `C26_any_other_calls` for a refused declaration
example : let w := afterCalls [.registerType 1, .createClass 1 ['A'] 1]
    w.kind 2 = some .cls ∧ w.find 1 = some 2 ∧ 1 ∉ (w.cls 2).bases.map (·.1) ∧ w.find 7 = none := by decide

end Rtti.Props
