import Verif.Spec.Builder
import Verif.Props.Define
import Verif.Props.Classes
set_option autoImplicit false
namespace Rtti.World
open Rtti Spec Props

variable {rank : TypeId → Nat}

/-- the null answer, in terms of names -/
theorem getConstructor_none_iff {w : World} {o : Ptr} (ho : w.isContainer o = true) (q : Str) :
    w.getConstructor o q = .val none ↔ ∀ x ∈ (w.cont o .constructor).items, ¬ Denotes q x.name := by
  rw [← findMethod_none_iff]
  constructor
  · exact getConstructor_none ho
  · intro h
    simp [getConstructor, ho, h]

theorem getConstructor_some_iff {w : World} {o : Ptr} (ho : w.isContainer o = true) (q : Str) (p : Ptr) :
    w.getConstructor o q = .val (some p) ↔ ∃ x, findMethod q (w.cont o .constructor).items = some (some x) ∧ x.ptr = p := by
  unfold getConstructor
  rw [if_pos ho]
  cases findMethod q (w.cont o .constructor).items with
  | none => simp
  | some r => cases r <;> simp

theorem Denotes.trans {q s m : Str} (h : Denotes q s) (h' : Denotes s m) : Denotes q m := by
  rcases h' with rfl | ⟨rest, rfl, hn⟩
  · exact h
  · rcases h with rfl | ⟨r, rfl, hq⟩
    · exact .inr ⟨rest, rfl, hn⟩
    · exact absurd (by simp) hn

/-- what one `_constructor` call does -/
theorem define_one {w : World} (h : Reachable rank w) {o : Ptr} (ho : w.isContainer o = true) (c : Ctor) :
    ∃ w' p, w.defineConstructor o c = (w', .val (some p)) ∧ Reachable rank w' ∧ w'.isContainer o = true ∧
      w'.kind o = w.kind o ∧
      w'.getConstructor o (ctorSignature c) = .val (some p) ∧
      (∀ q x, w.getConstructor o q = .val (some x) → w'.getConstructor o q = .val (some x)) ∧
      (∀ q, w'.getConstructor o q = .val none ↔ w.getConstructor o q = .val none ∧ ¬ Denotes q (ctorSignature c)) ∧
      (w.getConstructor o (ctorSignature c) = .val none → w.kind p = none ∧
        (w'.cont o .constructor).items = (w.cont o .constructor).items ++ [⟨p, ctorSignature c⟩]) := by
  have hs : w.step (.createConstructor o (ctorSignature c) true) = w.defineConstructor o c := by
    simp [step, ho, defineConstructor]
  have key := C17_constructor h ho (ctorSignature c)
  rcases key with ⟨p, h1, h2, h3⟩ | ⟨h1, p, h2, h3, h4⟩
  · have e : w.defineConstructor o c = (w, .val (some p)) := by
      rw [defineConstructor]
      exact Prod.ext h3 h2
    refine ⟨w, p, e, h, ho, rfl, h1, fun _ _ h => h, fun q => ⟨fun hq => ⟨hq, fun hd => ?_⟩, And.left⟩, fun hn => ?_⟩
    · obtain ⟨x, hx, rfl⟩ := (getConstructor_some_iff ho _ _).1 h1
      obtain ⟨pre, post, e1, e2, _⟩ := (findMethod_some_iff _ _ _).1 hx
      exact (getConstructor_none_iff ho q).1 hq x (by rw [e1]; simp) (Denotes.trans hd e2)
    · have h1 : w.getConstructor o (ctorSignature c) = .val (some p) := h1
      rw [hn] at h1
      exact nomatch h1
  · let w' := (w.defineConstructor o c).1
    have e : w.defineConstructor o c = (w', .val (some p)) := Prod.ext rfl h2
    have hr : Reachable rank w' := by
      have := Reachable.step (.createConstructor o (ctorSignature c) true) h trivial
      rw [hs, e] at this
      exact this (by simp) (by simp)
    have hop : o ≠ p := by
      rintro rfl
      have := h3.fresh
      simp [isContainer, this] at ho
    have hk : w'.kind o = w.kind o := (h3.otherObjects o hop).1
    have ho' : w'.isContainer o = true := by
      simpa [isContainer, hk] using ho
    have hi : (w'.cont o .constructor).items = (w.cont o .constructor).items ++ [⟨p, ctorSignature c⟩] := h3.items
    refine ⟨w', p, e, hr, ho', hk, h4, fun q x hq => ?_, fun q => ?_, fun _ => ⟨h3.fresh, hi⟩⟩
    · obtain ⟨y, hy, rfl⟩ := (getConstructor_some_iff ho _ _).1 hq
      rw [getConstructor_some_iff ho', hi]
      exact ⟨y, findMethod_append hy, rfl⟩
    · rw [getConstructor_none_iff ho', getConstructor_none_iff ho, hi]
      simp only [List.mem_append, List.mem_singleton]
      constructor
      · intro hx
        exact ⟨fun x hm => hx x (.inl hm), hx ⟨p, ctorSignature c⟩ (.inr rfl)⟩
      · rintro ⟨ha, hb⟩ x (hx | rfl)
        · exact ha x hx
        · exact hb

/-- several -/
theorem define_many {w : World} (h : Reachable rank w) {o : Ptr} (ho : w.isContainer o = true) (cs : List Ctor) :
    ∃ w', w.defineConstructors o cs = (w', .val ()) ∧ Reachable rank w' ∧ w'.isContainer o = true ∧
      w'.kind o = w.kind o ∧
      (∀ q x, w.getConstructor o q = .val (some x) → w'.getConstructor o q = .val (some x)) ∧
      (∀ q, w'.getConstructor o q = .val none ↔
        w.getConstructor o q = .val none ∧ ∀ c ∈ cs, ¬ Denotes q (ctorSignature c)) := by
  induction cs generalizing w with
  | nil => exact ⟨w, rfl, h, ho, rfl, fun _ _ h => h, fun q => by simp⟩
  | cons c cs ih =>
    obtain ⟨w1, p, e1, h1, ho1, hk1, _, hs1, hn1, _⟩ := define_one h ho c
    obtain ⟨w2, e2, h2, ho2, hk2, hs2, hn2⟩ := ih h1 ho1
    refine ⟨w2, ?_, h2, ho2, hk2.trans hk1, fun q x hq => hs2 q x (hs1 q x hq), fun q => ?_⟩
    · simp only [defineConstructors, e1, e2]
    · rw [hn2, hn1, List.forall_mem_cons, and_assoc]

theorem caps_sigs (k : Caps) (q : Str) : (∃ c ∈ k.ctors, Denotes q (ctorSignature c)) ↔
    (q = defaultSig ∧ k.dflt = true) ∨ (q = copySig ∧ k.copy = true) ∨ (q = moveSig ∧ k.move = true) := by
  have hd : Denotes q defaultSig ↔ q = defaultSig := by
    constructor
    · rintro (h | ⟨r, h, _⟩)
      · exact h.symm
      · exact absurd (show '(' ∈ defaultSig by rw [h]; simp) (by decide)
    · rintro rfl; exact .inl rfl
  have hc : Denotes q copySig ↔ q = copySig := by
    constructor
    · rintro (h | ⟨r, h, _⟩)
      · exact h.symm
      · exact absurd (show '(' ∈ copySig by rw [h]; simp) (by decide)
    · rintro rfl; exact .inl rfl
  have hm : Denotes q moveSig ↔ q = moveSig := by
    constructor
    · rintro (h | ⟨r, h, _⟩)
      · exact h.symm
      · exact absurd (show '(' ∈ moveSig by rw [h]; simp) (by decide)
    · rintro rfl; exact .inl rfl
  rcases k with ⟨_ | _, _ | _, _ | _, a, b⟩ <;>
    simp [Caps.ctors, ctorSignature, hd, hc, hm]

/-- the text of a constructor that is not default, copy or move -/
theorem ctorSignature_plain {c : Ctor} (h0 : c.args ≠ []) (h1 : ∀ a, c.args = [a] → a.self = false) :
    ctorSignature c = signatureText (ctorName c.name) (c.args.map (·.text)) := by
  unfold ctorSignature
  match hc : c.args with
  | [] => exact absurd hc h0
  | [a] => simp [h1 a hc]
  | a :: b :: as => rfl

end Rtti.World
