import Verif.Props.EqualExact
/-! C60: exactly which temporaries of `eq` are destroyed. -/
set_option autoImplicit false
namespace Rtti.Props
open Rtti Spec Val

/-- the call came back, with an answer or an exception -/
def Back {A : Type} : Ret A → Prop
  | .ok _ => True
  | .throw _ => True
  | _ => False

private theorem convertCompare_events {E : Env} {C : Cmp} {S T : CType} {a x : Addr} {b : Buf} (h : Back (convertCompare E C S T a x b).1) :
    (convertCompare E C S T a x b).2 = [] ∨
    ((convertCompare E C S T a x b).2 = [.construct b, .destroy b] ∧ Honest E S T a) ∨
    ((convertCompare E C S T a x b).2 = [.construct b] ∧ ¬Honest E S T a) := by
  unfold convertCompare at h ⊢
  cases hc : E.conv S.fullDecay T.fullDecay with
  | none => exact .inl rfl
  | some c =>
    have ho : Honest E S T a ↔ (c.kind = .functorOk → c.call a ≠ .returns false false) :=
      ⟨fun k => k c hc, fun k c' hc' => by rw [hc] at hc'; cases hc'; exact k⟩
    rw [ho]
    simp only [hc] at h
    cases hk : c.kind <;> cases hr : c.call a with
    | throws => simp [runConverter, hk, hr]
    | returns f cc =>
      cases cc <;> cases f <;> cases hT : T.isArray <;> simp [runConverter, hk, hr, hT, Back] at h ⊢

private def Shape (honest : Prop) (b : Buf) (l : List Tmp) : Prop :=
  l = [] ∨ (l = [.construct b, .destroy b] ∧ honest) ∨ (l = [.construct b] ∧ ¬honest)

private def cleanB : Bool → Bool → Bool → List Tmp → Bool
  | m, h, s, [] => !m && !h && !s
  | m, h, s, .alloc :: l => !m && !h && cleanB true false s l
  | m, h, s, .free :: l => m && !h && cleanB false false s l
  | m, h, s, .construct .heap :: l => m && !h && cleanB true true s l
  | m, h, s, .destroy .heap :: l => m && h && cleanB true false s l
  | m, h, s, .construct .stack :: l => !s && cleanB m h true l
  | m, h, s, .destroy .stack :: l => s && cleanB m h false l

private theorem clean_iff {m h s : Bool} {l : List Tmp} : Clean m h s l ↔ cleanB m h s l = true := by
  constructor
  · intro k
    induction k <;> simp_all [cleanB]
  · induction l generalizing m h s with
    | nil => intro k; simp [cleanB] at k; obtain ⟨⟨rfl, rfl⟩, rfl⟩ := k; exact .done
    | cons e l ih =>
      intro k
      cases e with
      | alloc => simp [cleanB] at k; obtain ⟨⟨rfl, rfl⟩, k⟩ := k; exact .alloc (ih k)
      | free => simp [cleanB] at k; obtain ⟨⟨rfl, rfl⟩, k⟩ := k; exact .free (ih k)
      | construct b =>
        cases b <;> simp [cleanB] at k
        · obtain ⟨rfl, k⟩ := k; exact .stack (ih k)
        · obtain ⟨⟨rfl, rfl⟩, k⟩ := k; exact .heap (ih k)
      | destroy b =>
        cases b <;> simp [cleanB] at k
        · obtain ⟨rfl, k⟩ := k; exact .unstack (ih k)
        · obtain ⟨⟨rfl, rfl⟩, k⟩ := k; exact .unheap (ih k)

/-- C60: a value that a converter made for `eq` is destroyed before `eq` returns or throws exactly if the converter did not, having made it,
    decline; at most one value in each direction is lost, and the memory on the heap is always freed. For all types. -/
theorem C60_temporaries_exact (E : Env) (C : Cmp) {v : Vnt} {u : CType} {a p : Addr} (st : Stands v u a) (pl : Place v p) (t : CType) (x : Addr)
    (hb : Back (eq E C v t x).1) :
    let l := (eq E C v t x).2
    (Clean false false false l ↔ (.construct .stack ∈ l → Honest E u t p) ∧ (.construct .heap ∈ l → Honest E t u x)) ∧
    l.count .alloc = l.count .free ∧
    (∀ b, l.count (.destroy b) ≤ l.count (.construct b) ∧ l.count (.construct b) ≤ 1) ∧
    (l.count (.destroy .stack) < l.count (.construct .stack) ↔ .construct .stack ∈ l ∧ ¬Honest E u t p) ∧
    (l.count (.destroy .heap) < l.count (.construct .heap) ↔ .construct .heap ∈ l ∧ ¬Honest E t u x) := by
  obtain ⟨g, eg, rfl⟩ := st.held
  have hp : v.access = p := (place_access eg).unique pl
  subst hp
  intro l
  have hl : l = (eq E C v t x).2 := rfl
  have sh : l = [] ∨ Shape (Honest E g.u t v.access) .stack l ∨
      ∃ l1 l2, Shape (Honest E g.u t v.access) .stack l1 ∧ Shape (Honest E t g.u x) .heap l2 ∧ l = l1 ++ .alloc :: l2 ++ [.free] := by
    rw [hl]
    have e1 := convertCompare_events (E := E) (C := C) (S := g.u) (T := t) (a := v.access) (x := x) (b := .stack)
    have e2 := convertCompare_events (E := E) (C := C) (S := t) (T := g.u) (a := x) (x := if g.t.isArray then v.ptr else v.access) (b := .heap)
    unfold eq at hb ⊢
    rw [eg] at hb ⊢
    simp only at hb ⊢
    generalize convertCompare E C g.u t v.access x .stack = q at *
    generalize convertCompare E C t g.u x (if g.t.isArray then v.ptr else v.access) .heap = q' at *
    obtain ⟨q1, q2⟩ := q
    obtain ⟨r1, r2⟩ := q'
    generalize equal E C v ⟨some ⟨true, addConst t⟩, 0, x⟩ = z at *
    cases z with
    | ok b =>
      cases b with
      | true => exact .inl rfl
      | false =>
        cases q1 with
        | ok o =>
          have e1 := e1 trivial
          cases o with
          | some r => exact .inr (.inl e1)
          | none =>
            simp only at hb ⊢
            by_cases hn : (E.conv t.fullDecay g.u.fullDecay).isSome = true
            · rw [if_pos hn] at hb ⊢
              cases r1 with
              | ok o =>
                cases o <;> exact .inr (.inr ⟨_, _, e1, e2 trivial, rfl⟩)
              | throw e => exact .inr (.inr ⟨_, _, e1, e2 trivial, rfl⟩)
              | _ => exact hb.elim
            · rw [if_neg hn]
              exact .inr (.inl e1)
        | throw e => exact .inr (.inl (e1 trivial))
        | _ => exact hb.elim
    | throw e => exact .inl rfl
    | _ => exact hb.elim
  clear_value l
  clear hl hb
  rw [clean_iff]
  rcases sh with rfl | (rfl | ⟨rfl, h⟩ | ⟨rfl, h⟩) | ⟨l1, l2, (rfl | ⟨rfl, h⟩ | ⟨rfl, h⟩), (rfl | ⟨rfl, h'⟩ | ⟨rfl, h'⟩), rfl⟩ <;>
    refine ⟨?_, ?_, fun b => ?_, ?_, ?_⟩ <;> (try cases b) <;> simp_all [cleanB]

/-! ### cases -/

open ExQ in
-- a value that is lost, and one that is not, in one call
example : Back (eq (cenv .functorOk (.returns false false)) cmp vi (ExV.cls ExV.N) 7000).1 ∧ Place vi 1000 ∧
    (eq (cenv .functorOk (.returns false false)) cmp vi (ExV.cls ExV.N) 7000).2 = [.construct .stack, .alloc, .construct .heap, .destroy .heap, .free] := by
  refine ⟨?_, place_access (v := vi) rfl, by decide +kernel⟩
  rw [show (eq (cenv .functorOk (.returns false false)) cmp vi (ExV.cls ExV.N) 7000).1 = .ok true by decide +kernel]
  trivial

end Rtti.Props
