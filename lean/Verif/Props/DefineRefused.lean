import Verif.Props.Errors
import Verif.Props.Builder
/-
C52: when `_class<C>` is refused.
-/
set_option autoImplicit false
namespace Rtti.Props
open Rtti Spec World

private theorem ctors_quiet (o : Ptr) (cs : List Ctor) : ∀ (w : World) (e : Err), (w.defineConstructors o cs).2 ≠ .throw e := by
  induction cs with
  | nil => exact fun _ _ => nofun
  | cons c cs ih =>
    intro w e h
    have q : (w.defineConstructor o c).2 ≠ .throw e := by
      simp only [defineConstructor, createConstructor, Bool.not_true, Bool.false_eq_true, if_false]
      exact getOrCreate_quiet _ _ _ _ _ _ _ (fun w e => getConstructor_quiet w _ _ e) e
    simp only [defineConstructors] at h
    rcases hd : w.defineConstructor o c with ⟨w', r⟩
    rw [hd] at h q
    cases r with
    | val a => exact ih w' e h
    | throw e' => exact q (by cases h; rfl)
    | ub => cases h
    | diverge => cases h

/-- C52: `_class<C>(name)` throws exactly if the name is free and the type has a class already; the exception is
    `duplicate_metaclass`. -/
theorem C52_throws_iff {rank : TypeId → Nat} {w : World} (h : Reachable rank w) (o : Ptr) (n : Str) {t : TypeId} (ht : t ≠ 0)
    (k : Caps) (e : Err) :
    (w.defineClass o n t k).2 = .throw e ↔ e = .duplicateClass ∧ w.getItem o .cls n = .val none ∧ ∃ c, w.find t = some c := by
  let w1 := (w.step (.registerType t)).1
  have hw1 : w1 = { w with valid := upd w.valid t true } := by simp [w1, step, ht]
  have r1 : Reachable rank w1 := Reachable.step (.registerType t) h trivial (by simp [step, ht]) (by simp [step, ht])
  have hg : w1.getItem o .cls n = w.getItem o .cls n := by rw [hw1]; rfl
  have hf : ∀ c, w1.find t = some c ↔ w.find t = some c := by
    intro c
    have h1 : w1.find t = w.metaClass t := by rw [hw1]; simp [find]
    rw [h1]
    constructor
    · intro hm; unfold find; rw [((Inv.reachable h).mc t c hm).1]; exact hm
    · intro hm
      unfold find at hm
      split at hm
      · exact hm
      · cases hm
  have key : (w.defineClass o n t k).2 = .throw e ↔ (w1.createClass o n t).2 = .throw e := by
    simp only [defineClass]
    rw [show (w.step (.registerType t)).1 = w1 from rfl]
    rcases hc : w1.createClass o n t with ⟨w2, r⟩
    rcases r with (_ | p) | _ | _ | _ <;> try exact Iff.rfl
    dsimp only
    have q := ctors_quiet p k.ctors w2 e
    rcases hd : w2.defineConstructors p k.ctors with ⟨w3, r3⟩
    rw [hd] at q
    refine ⟨fun x => ?_, nofun⟩
    cases r3 with
    | throw e' => exact absurd (by cases x; rfl) q
    | val a => cases x
    | ub => cases x
    | diverge => cases x
  have d := C77_define r1 (.createClass o n t) e
  rw [key]
  refine Iff.trans d ⟨fun x => ?_, ?_⟩
  · cases x with
    | classOfNoType _ hv => rw [hw1] at hv; simp at hv
    | classTwice a b => exact ⟨rfl, hg ▸ a, _, (hf _).1 b⟩
  · rintro ⟨rfl, a, c, b⟩
    exact .classTwice (hg.trans a) ((hf c).2 b)

/-- C52: a refused `_class<C>` leaves everything as it was. -/
theorem C52_refused {rank : TypeId → Nat} {w : World} (h : Reachable rank w) (o : Ptr) (n : Str) {t : TypeId} (ht : t ≠ 0)
    (k : Caps) (e : Err) (hr : (w.defineClass o n t k).2 = .throw e) : (w.defineClass o n t k).1 = w := by
  obtain ⟨_, hg, c, hf⟩ := (C52_throws_iff h o n ht k e).1 hr
  have hv : w.valid t = true ∧ w.metaClass t = some c := by
    unfold find at hf
    split at hf
    · rename_i h; exact ⟨h, hf⟩
    · cases hf
  have hw : (w.step (.registerType t)).1 = w := by
    have : upd w.valid t true = w.valid := by
      funext x
      by_cases hx : x = t
      · subst hx; rw [upd_same, hv.1]
      · exact upd_ne _ _ hx
    simp [step, ht, this]
  simp only [defineClass]
  rw [hw]
  simp [createClass, hg, hv.1, hv.2]

-- the type of a class of the diamond, under another name
example : (Ex.diamond.defineClass 1 ['E'] 4 ⟨true, true, true, "c".toList, "r".toList⟩).2 = .throw .duplicateClass ∧
    Ex.diamond.getItem 1 .cls ['E'] = .val none ∧ Ex.diamond.find 4 = some 5 := by decide +kernel

end Rtti.Props
