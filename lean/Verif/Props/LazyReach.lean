import Verif.Lemmas.LazyReach
import Verif.Lemmas.LazyOrigin
import Verif.Props.Lazy
import Verif.Props.Classes
import Verif.Props.Define
/-
C85: deferred definitions leave the library in a state that definitions without deferral could have made, up to a method or
property that a base class has too.
-/
set_option autoImplicit false
namespace Rtti.Props
open Lazy Spec

theorem pendingOk_init (rank : TypeId → Nat) (W : World) : PendingOk rank W init := by
  intro p b h
  exact absurd h (by simp [init])

/-- C85: after any program, however its deferred definitions nest, fail, are caught or define into one another, and wherever it
    stopped, the library is in a state to which everything proved of plain definitions applies. -/
theorem C85_reachable {rank : TypeId → Nat} (fuel : Nat) (cs : List Cmd) (h : ProperBases rank (after fuel cs).w cs) :
    Reachable rank (after fuel cs).w := by
  obtain ⟨_, _, _, l⟩ := leads_run rank (after fuel cs).w fuel cs h init kindsOk_init (pendingOk_init _ _)
  exact later_reachable .init (l (.refl _) .init)

/-- C85: what is run later only adds: the state later is one reached from the state now. -/
theorem C85_later {rank : TypeId → Nat} (fuel fuel' : Nat) (cs more : List Cmd)
    (h : ProperBases rank (run fuel' more (after fuel cs)).1.w (cs ++ more)) :
    Reachable rank (after fuel cs).w ∧ Later rank (after fuel cs).w (run fuel' more (after fuel cs)).1.w := by
  have ha : ∀ {P} {a b : List Cmd}, DeclaresAll P (a ++ b) → DeclaresAll P a ∧ DeclaresAll P b := by
    intro P a b h
    induction a with
    | nil => exact ⟨trivial, h⟩
    | cons c a ih => exact ⟨⟨h.1, (ih h.2).1⟩, (ih h.2).2⟩
  obtain ⟨h1, h2⟩ := ha h
  obtain ⟨k, g, _, l⟩ := leads_run rank _ fuel cs h1 init kindsOk_init (pendingOk_init _ _)
  obtain ⟨_, _, e, l'⟩ := leads_run rank _ fuel' more h2 _ k g
  have r := later_reachable .init (l e .init)
  exact ⟨r, l' (.refl _) r⟩

/-- C85: when nothing is pending, `inheritedFrom`, `cast` and the look-ups of methods and properties run to their end and answer
    by the declared hierarchy, and change nothing. -/
theorem C85_answers {rank : TypeId → Nat} (fuel n : Nat) (cs : List Cmd) (h : ProperBases rank (after fuel cs).w cs)
    (hq : ∀ p, (after fuel cs).pending p = none) (hn : (after fuel cs).w.depth ≤ n + 1) {d : Ptr} (hd : (after fuel cs).w.kind d = some .cls) :
    (∀ b, ∃ r, run (n + 1) [.query (.inherited d (some b))] (after fuel cs) = (after fuel cs, .val [.bool r]) ∧
      (r = true ↔ Reaches (after fuel cs).w d b)) ∧
    (∀ b a, ∃ r, run (n + 1) [.query (.cast d (some b) a)] (after fuel cs) = (after fuel cs, .val [.num r]) ∧
      ((∃ fs, LeftPath (after fuel cs).w d b fs ∧ r = applyCasts fs a) ∨ (¬ Reaches (after fuel cs).w d b ∧ r = 0))) ∧
    (∀ q, q ≠ [] → ∃ r, run (n + 1) [.query (.method d q)] (after fuel cs) = (after fuel cs, .val [.ptr r]) ∧
      (∀ m, r = some m ↔ Finds (after fuel cs).w (OwnMethod (after fuel cs).w q) d m) ∧
      (r = none ↔ ∀ a m, Reaches (after fuel cs).w d a → ¬ OwnMethod (after fuel cs).w q a m)) ∧
    (∀ q, q ≠ [] → ∃ r, run (n + 1) [.query (.property d q)] (after fuel cs) = (after fuel cs, .val [.ptr r]) ∧
      (∀ m, r = some m ↔ Finds (after fuel cs).w (OwnProperty (after fuel cs).w q) d m) ∧
      (r = none ↔ ∀ a m, Reaches (after fuel cs).w d a → ¬ OwnProperty (after fuel cs).w q a m)) := by
  have hr := C85_reachable fuel cs h
  have ask : ∀ (q : Query) (a : Ans), answer (after fuel cs) q = .val a →
      run (n + 1) [.query q] (after fuel cs) = (after fuel cs, .val [a]) := by
    intro q a e
    obtain ⟨h1, h2⟩ := C32_plain_query fuel n cs hq hn q (by rw [e]; simp)
    rw [e] at h2
    exact Prod.ext h1 h2
  refine ⟨fun b => ?_, fun b a => ?_, fun q hne => ?_, fun q hne => ?_⟩
  · rcases C25_inheritedFrom_iff_reaches hr hd b with ⟨e, t⟩ | ⟨e, t⟩
    · exact ⟨true, ask _ _ (by simp [answer, hd, e, answer.ansOf]), by simp [t]⟩
    · exact ⟨false, ask _ _ (by simp [answer, hd, e, answer.ansOf]), by simp [t]⟩
  · obtain ⟨h1, h2, _⟩ := C27_upcast hr hd b a
    by_cases t : Reaches (after fuel cs).w d b
    · obtain ⟨fs, hf, _, _, e⟩ := h1 t
      exact ⟨applyCasts fs a, ask _ _ (by simp [answer, hd, e, answer.ansOf]), .inl ⟨fs, hf, rfl⟩⟩
    · have e := h2 t
      exact ⟨0, ask _ _ (by simp [answer, hd, e, answer.ansOf]), .inr ⟨t, rfl⟩⟩
  · obtain ⟨⟨r, e⟩, h1, h2, _⟩ := C29_methods hr hd hne
    refine ⟨r, ask _ _ (by simp [answer, e, answer.ansOf]), fun m => ?_, ?_⟩
    · rw [← h1 m, e]; simp
    · rw [← h2, e]; simp
  · obtain ⟨⟨r, e⟩, h1, h2, _⟩ := C29_properties hr hd hne
    refine ⟨r, ask _ _ (by simp [answer, e, answer.ansOf]), fun m => ?_, ?_⟩
    · rw [← h1 m, e]; simp
    · rw [← h2, e]; simp

/-- C85: an object keeps its kind, name and owner; what is listed in a container stays where it is in the list; what was found by
    name, by type or by signature in the class itself is still found; base classes are never forgotten or reordered. -/
theorem C85_keeps {rank : TypeId → Nat} (fuel fuel' : Nat) (cs more : List Cmd)
    (h : ProperBases rank (run fuel' more (after fuel cs)).1.w (cs ++ more)) :
    let w := (after fuel cs).w
    let w' := (run fuel' more (after fuel cs)).1.w
    (∀ p k, w.kind p = some k → w'.kind p = some k ∧ w'.name p = w.name p ∧ w'.owner p = w.owner p) ∧
    (∀ c k, w.isContainer c = true → (w.cont c k).items <+: (w'.cont c k).items) ∧
    (∀ c k n p, w.getItem c k n = .val (some p) → w'.getItem c k n = .val (some p)) ∧
    (∀ t p, w.find t = some p → w'.find t = some p) ∧
    (∀ c n m, n ≠ [] → w.isContainer c = true → OwnMethod w n c m → w'.getMethod c n = .val (some m)) ∧
    (∀ c n m, n ≠ [] → w.isContainer c = true → OwnProperty w n c m → w'.getProperty c n = .val (some m)) ∧
    (∀ d, w.kind d = some .cls → (w.cls d).bases <+: (w'.cls d).bases) := by
  obtain ⟨r, l⟩ := C85_later fuel fuel' cs more h
  obtain ⟨_, g⟩ := later_grows r l
  refine ⟨fun p k hk => ⟨g.kind p k hk, g.name p k hk, g.owner p k hk⟩, fun c k hc => ?_, fun c => (C59_items_stable r l c).1,
    (C59_items_stable r l 0).2.1, fun c n m hn hc => fun o => ((C59_own_members_partial r l c n hn m hc).1 o).2,
    fun c n m hn hc => fun o => ((C59_own_members_partial r l c n hn m hc).2 o).2, fun d hd => ?_⟩
  · obtain ⟨s, e⟩ := g.items c k hc
    exact ⟨s, e.symm⟩
  · obtain ⟨s, e⟩ := g.bases d hd
    exact ⟨s, e.symm⟩

/-- `B` (2), `C` (3), and `D` (4) derived from both; `C`'s deferred definition declares a base class `A` (5) of `C`, gives `B` a
    method `f()`, and fails; the failure is caught -/
def busy : List Cmd :=
  [.op (.registerType 7), .op (.registerType 8), .op (.registerType 9), .op (.registerType 6),
   .op (.createClass 1 ['B'] 7), .op (.createClass 1 ['C'] 8), .op (.createClass 1 ['D'] 9), .op (.createClass 1 ['A'] 6),
   .op (.addBase 4 7 id), .op (.addBase 4 8 (· + 4)),
   .install 3 [.op (.addBase 3 6 (· + 8)), .op (.createMethod 2 ['f', '(', ')'] true), .raise],
   .attempt [.op (.createMethod 4 ['f', '(', ')'] true)]]

theorem busy_proper : ProperBases id (after 9 busy).w busy := by
  simp only [ProperBases, busy, DeclaresAll, Declares]
  decide +kernel

example : Reachable id (after 9 busy).w ∧ (after 9 busy).w.depth ≤ 9 ∧ (∀ p < 9, (after 9 busy).pending p = none) ∧
    (after 9 busy).w.kind 4 = some .cls ∧
    (run 9 [.query (.inherited 4 (some 5)), .query (.cast 4 (some 5) 100), .query (.method 4 ['f']), .query (.method 5 ['f'])] (after 9 busy)).2 =
      .val [.bool true, .num 112, .ptr (some 6), .ptr none] :=
  ⟨C85_reachable 9 busy busy_proper, by decide +kernel, by decide +kernel, by decide +kernel, by decide +kernel⟩

/-- C85: nothing appears from nowhere. What a container lists, the base classes a class has with the conversions they are
    reached by, and the class found for a type were each asked for by a call of the program or of one of its deferred
    definitions. -/
theorem C85_origin (fuel : Nat) (cs : List Cmd) :
    let w := (after fuel cs).w
    (∀ c k, ∀ x ∈ (w.cont c k).items, ∃ op, InvokesAny op cs ∧ makes op = some (c, k, x.name)) ∧
    (∀ d, ∀ x ∈ (w.cls d).bases, InvokesAny (.addBase d x.1 x.2) cs) ∧
    (∀ t p, w.metaClass t = some p → ∃ c n, InvokesAny (.createClass c n t) cs) ∧
    (∀ t, w.valid t = true → InvokesAny (.registerType t) cs) := by
  obtain ⟨_, h⟩ := orig_run (fun x => InvokesAny x cs) fuel cs (fun _ h => h) init (fun p b e => by simp [init] at e)
  refine ⟨fun c k x hx => (h.items c k x hx).resolve_left ?_, fun d x hx => (h.bases d x hx).resolve_left ?_,
    fun t p e => (h.types t p e).resolve_left ?_, fun t e => (h.valid t e).resolve_left ?_⟩
  all_goals simp [init, World.init, Container.empty, ItemList.empty]

/-- the caught definition of `busy` put a method into `B` and a base class into `C`: both stand in the program, inside `install` -/
example : ((after 9 busy).w.cont 2 .method).items.map Item.name = [['f', '(', ')']] ∧
    ((after 9 busy).w.cls 3).bases.map Prod.fst = [6] ∧ (after 9 busy).w.metaClass 6 = some 5 ∧ (after 9 busy).w.valid 6 = true ∧
    InvokesAny (.createMethod 2 ['f', '(', ')'] true) busy := by
  refine ⟨by decide +kernel, by decide +kernel, by decide +kernel, by decide +kernel, ?_⟩
  simp [busy, InvokesAny, Invokes]

/-- Without the failure `D` gets its own method although `B`, its first base class, has it: the look-up in `D` had passed `B` when
    `C`'s deferred definition gave it the method. Made in the same order without deferral, the second definition finds the first. -/
theorem C85_missed_false :
    let defs := [Cmd.op (.createMethod 2 ['f', '(', ')'] true)]
    let create := [Cmd.op (.createMethod 4 ['f', '(', ')'] true)]
    let late := after 9 (busy.take 10 ++ .install 3 defs :: create)
    let direct := after 9 (busy.take 10 ++ (defs ++ create))
    ((late.w.getItem 2 .method ['f', '(', ')']) = .val (some 6) ∧ (late.w.getItem 4 .method ['f', '(', ')']) = .val (some 7) ∧
      late.w.inheritedFrom 4 (some 2) = .val true ∧ late.w.getMethod 4 ['f'] = .val (some 7)) ∧
    ((direct.w.getItem 2 .method ['f', '(', ')']) = .val (some 6) ∧ (direct.w.getItem 4 .method ['f', '(', ')']) = .val none ∧
      direct.w.getMethod 4 ['f'] = .val (some 6)) := by decide +kernel

/-- a program continued: the method found in `B` before is found after -/
example : ProperBases id (run 9 [.op (.createMethod 3 ['g', '(', ')'] true)] (after 9 busy)).1.w (busy ++ [.op (.createMethod 3 ['g', '(', ')'] true)]) ∧
    (after 9 busy).w.getItem 2 .method ['f', '(', ')'] = .val (some 6) := by
  refine ⟨?_, by decide +kernel⟩
  simp only [ProperBases, busy, List.cons_append, List.nil_append, DeclaresAll, Declares]
  decide +kernel

end Rtti.Props
