import Verif.Lemmas.Circles
import Verif.Lemmas.Define
import Verif.Props.Value
import Verif.Model.Invoke
/-!
C86: base classes declared in a circle. `_base<B>()` asks only that `static_cast<B*>(Self*)` compiles; it compiles for `B = Self` and,
without virtual bases, from a base class to a derived one.
-/
set_option autoImplicit false
namespace Rtti.Props
open Rtti Spec World

/-- C86: no circle is refused: whatever the hierarchy, declaring a class as a base of a class succeeds. -/
theorem C86_accepted (ops : List Op) {d b : Ptr} {t : TypeId} (hd : (afterCalls ops).kind d = some .cls)
    (hb : (afterCalls ops).find t = some b) (f : Caster) :
    ((afterCalls ops).step (.addBase d t f)).2 = .val none ∧ DeclaredBase (afterCalls (ops ++ [.addBase d t f])) d b := by
  have i := Loose.calls ops
  have hl := Listed.calls ops
  have e : afterCalls (ops ++ [.addBase d t f]) = ((afterCalls ops).step (.addBase d t f)).1 := by
    simp [afterCalls, List.foldl_append]
  rw [e]
  generalize hw : afterCalls ops = w at *
  have hv : w.valid t = true ∧ w.metaClass t = some b := by
    unfold World.find at hb
    split at hb
    · exact ⟨‹_›, hb⟩
    · cases hb
  have hm := hl d hd
  have hmv := (i.mc _ _ hm).1
  have hs : w.step (.addBase d t f) = ((w.addBaseClass d t f).1, .val none) ∧
      behind (w.addBaseClass d t f).1 ((w.addBaseClass d t f).1.cls d).bases = behind w (basesAdd (w.cls d).bases t f) := by
    simp only [World.step, hd, if_true, addBaseClass, hv.1, hv.2, addDerivedClass, Bool.not_true, Bool.false_eq_true, if_false, upd_same,
      hmv, hm]
    refine ⟨trivial, ?_⟩
    have : ∀ (w' : World) (l : List (TypeId × Caster)), w'.valid = w.valid → w'.metaClass = w.metaClass → behind w' l = behind w l := by
      intro w' l h1 h2
      simp only [behind, World.find, h1, h2]
    refine (this _ _ rfl rfl).trans (congrArg _ ?_)
    by_cases e : d = b
    · subst e; rw [upd_same]; dsimp only; rw [upd_same]
    · rw [upd_ne _ _ e, upd_same]
  refine ⟨by rw [hs.1], ?_⟩
  rw [hs.1, declared_iff, hs.2]
  unfold behind basesAdd
  split
  · rename_i h
    obtain ⟨x, hx, e⟩ := List.any_eq_true.1 h
    refine List.mem_filterMap.2 ⟨x, hx, ?_⟩
    rw [← eq_of_beq e]
    exact hb
  · exact List.mem_filterMap.2 ⟨(t, f), by simp, hb⟩

private theorem target_iff (b c : Ptr) : c = b ↔ isTarget b c ≠ none := by
  unfold isTarget; split <;> rename_i h
  · simp [h]
  · simp [Ne.symm h]

private theorem comes_to {w : World} {stop : Ptr → Prop} {d c : Ptr} (h : ComesTo w stop d c) : stop c := by
  induction h with
  | here h => exact h
  | base _ _ _ _ _ ih => exact ih

/-- C86: `inheritedFrom` after any calls. It answers `true` exactly if the search comes to the class before it runs into a circle,
    `false` exactly if the class cannot be reached and there is no circle; otherwise it never ends, and there is a circle. -/
theorem C86_inherited (ops : List Op) {d : Ptr} (hd : (afterCalls ops).kind d = some .cls) (b : Ptr) :
    ((afterCalls ops).inheritedFrom d (some b) = .val true ↔ ComesTo (afterCalls ops) (· = b) d b) ∧
    ((afterCalls ops).inheritedFrom d (some b) = .val false ↔
      ¬Reaches (afterCalls ops) d b ∧ ¬CircleAhead (afterCalls ops) (· = b) d) ∧
    ((afterCalls ops).inheritedFrom d (some b) = .val true ∨ (afterCalls ops).inheritedFrom d (some b) = .val false ∨
      (∀ fuel, (afterCalls ops).inheritedFromF fuel d (some b) = .diverge) ∧ CircleAhead (afterCalls ops) (· = b) d) := by
  have i := Loose.calls ops
  generalize afterCalls ops = w at *
  unfold World.inheritedFrom
  simp only [i.inheritedFromF]
  obtain ⟨h1, h2, h3⟩ := i.exact (target_iff b) hd (N := w.depth) (Nat.le_succ _)
  rcases e : Dfs.dfs (isTarget b) (graph w) w.depth d with _ | _ | u
  · rw [e] at h1 h2 h3
    refine ⟨⟨nofun, fun h => ?_⟩, ⟨nofun, fun h => ?_⟩, .inr (.inr ⟨fun n => by rw [(h3 rfl).1 n]; rfl, (h3 rfl).2⟩)⟩
    · cases (h1 ()).2 ⟨b, h, by simp [isTarget]⟩
    · exact absurd (h3 rfl).2 h.2
  · rw [e] at h1 h2
    refine ⟨⟨nofun, fun h => ?_⟩, ⟨fun _ => ?_, fun _ => rfl⟩, .inr (.inl rfl)⟩
    · cases (h1 ()).2 ⟨b, h, by simp [isTarget]⟩
    · have := h2.1 rfl
      exact ⟨fun h => this.1 b h rfl, this.2⟩
  · rw [e] at h1 h2
    obtain ⟨c, hc, _⟩ := (h1 u).1 rfl
    have hcb := comes_to hc
    subst hcb
    refine ⟨⟨fun _ => hc, fun _ => rfl⟩, ⟨nofun, fun h => ?_⟩, .inl rfl⟩
    cases h2.2 ⟨fun x hx hxb => h.1 (hxb ▸ hx), h.2⟩

/-- C86: `cast` gives the pointer along the first way to the class, the null pointer, or never ends, exactly as `inheritedFrom` answers
    `true`, `false` or never ends. -/
theorem C86_cast (ops : List Op) (d b : Ptr) (a : Addr) :
    ((afterCalls ops).inheritedFrom d (some b) = .val true → ∃ fs, LeftPath (afterCalls ops) d b fs ∧
      (afterCalls ops).cast d (some b) a = .val (applyCasts fs a)) ∧
    ((afterCalls ops).inheritedFrom d (some b) = .val false → (afterCalls ops).cast d (some b) a = .val 0) ∧
    ((∀ fuel, (afterCalls ops).inheritedFromF fuel d (some b) = .diverge) → ∀ fuel, (afterCalls ops).castF fuel d (some b) a = .diverge) := by
  have i := Loose.calls ops
  exact ⟨(i.castF b _ d a).1, (i.castF b _ d a).2.1, fun h n => (i.castF b n d a).2.2 (h n)⟩

/-- C86: `getMethod` of a class after any calls. -/
theorem C86_method (ops : List Op) {d : Ptr} (hd : (afterCalls ops).kind d = some .cls) {n : Str} (hn : n ≠ []) :
    (∀ m, (afterCalls ops).getMethod d n = .val (some m) ↔
      ∃ c, ComesTo (afterCalls ops) (HasMethod (afterCalls ops) n) d c ∧ OwnMethod (afterCalls ops) n c m) ∧
    ((afterCalls ops).getMethod d n = .val none ↔
      (∀ c, Reaches (afterCalls ops) d c → ¬HasMethod (afterCalls ops) n c) ∧
        ¬CircleAhead (afterCalls ops) (HasMethod (afterCalls ops) n) d) ∧
    ((∃ r, (afterCalls ops).getMethod d n = .val r) ∨
      (∀ fuel, (afterCalls ops).classMethodF fuel d n = .diverge) ∧ CircleAhead (afterCalls ops) (HasMethod (afterCalls ops) n) d) := by
  have i := Loose.calls ops
  generalize afterCalls ops = w at *
  have hs : ∀ c, HasMethod w n c ↔ methodOf w n c ≠ none := by
    intro c
    simp only [HasMethod, ← methodOf_iff, Option.ne_none_iff_exists']
  have e : w.getMethod d n = toPtr (Dfs.dfs (methodOf w n) (graph w) w.depth d) := by
    simp only [World.getMethod, if_neg hn, hd, i.classMethodF hn]
  simp only [e, i.classMethodF hn]
  obtain ⟨h1, h2, h3⟩ := i.exact hs hd (N := w.depth) (Nat.le_succ _)
  simp only [methodOf_iff] at h1
  generalize hr : Dfs.dfs (methodOf w n) (graph w) w.depth d = r at h1 h2 h3
  rcases r with _ | r
  · refine ⟨fun m => ?_, ?_, .inr ⟨fun k => by rw [(h3 rfl).1 k]; rfl, (h3 rfl).2⟩⟩
    · rw [← h1]; exact ⟨nofun, nofun⟩
    · rw [← h2]; exact ⟨nofun, nofun⟩
  · refine ⟨fun m => ?_, ?_, .inl ⟨r, rfl⟩⟩
    · rw [← h1]; simp [toPtr]
    · rw [← h2]; simp [toPtr]

/-- C86: `getProperty` of a class after any calls. -/
theorem C86_property (ops : List Op) {d : Ptr} (hd : (afterCalls ops).kind d = some .cls) {n : Str} (hn : n ≠ []) :
    (∀ m, (afterCalls ops).getProperty d n = .val (some m) ↔
      ∃ c, ComesTo (afterCalls ops) (HasProperty (afterCalls ops) n) d c ∧ OwnProperty (afterCalls ops) n c m) ∧
    ((afterCalls ops).getProperty d n = .val none ↔
      (∀ c, Reaches (afterCalls ops) d c → ¬HasProperty (afterCalls ops) n c) ∧
        ¬CircleAhead (afterCalls ops) (HasProperty (afterCalls ops) n) d) ∧
    ((∃ r, (afterCalls ops).getProperty d n = .val r) ∨
      (∀ fuel, (afterCalls ops).classPropertyF fuel d n = .diverge) ∧
        CircleAhead (afterCalls ops) (HasProperty (afterCalls ops) n) d) := by
  have i := Loose.calls ops
  generalize afterCalls ops = w at *
  have hs : ∀ c, HasProperty w n c ↔ w.ownProperty c n ≠ none := by
    intro c
    simp only [HasProperty, ← i.ownProperty hn, Option.ne_none_iff_exists']
  have e : w.getProperty d n = toPtr (Dfs.dfs (fun c => w.ownProperty c n) (graph w) w.depth d) := by
    simp only [World.getProperty, hd, i.classPropertyF hn]
  simp only [e, i.classPropertyF hn]
  obtain ⟨h1, h2, h3⟩ := i.exact hs hd (N := w.depth) (Nat.le_succ _)
  simp only [i.ownProperty hn] at h1
  generalize hr : Dfs.dfs (fun c => w.ownProperty c n) (graph w) w.depth d = r at h1 h2 h3
  rcases r with _ | r
  · refine ⟨fun m => ?_, ?_, .inr ⟨fun k => by rw [(h3 rfl).1 k]; rfl, (h3 rfl).2⟩⟩
    · rw [← h1]; exact ⟨nofun, nofun⟩
    · rw [← h2]; exact ⟨nofun, nofun⟩
  · refine ⟨fun m => ?_, ?_, .inl ⟨r, rfl⟩⟩
    · rw [← h1]; simp [toPtr]
    · rw [← h2]; simp [toPtr]

private theorem never (ops : List Op) {d : Ptr} (hd : (afterCalls ops).kind d = some .cls)
    (hc : CircleAhead (afterCalls ops) (fun _ => False) d) {n : Str} (hn : n ≠ []) :
    ((∀ c, Reaches (afterCalls ops) d c → ¬HasMethod (afterCalls ops) n c) → (afterCalls ops).getMethod d n = .diverge) ∧
    ((∀ c, Reaches (afterCalls ops) d c → ¬HasProperty (afterCalls ops) n c) → (afterCalls ops).getProperty d n = .diverge) := by
  obtain ⟨c, m, hc1, _, hc2, hc3⟩ := hc
  have reach : ∀ {x y : Ptr} {s : Ptr → Prop}, Walks (afterCalls ops) s x y → Reaches (afterCalls ops) x y := by
    intro x y s h
    induction h with
    | refl => exact .refl _
    | step _ h _ ih => exact .step h ih
  have trans : ∀ {x y z : Ptr}, Reaches (afterCalls ops) x y → Reaches (afterCalls ops) y z → Reaches (afterCalls ops) x z := by
    intro x y z h h'
    induction h with
    | refl => exact h'
    | step h _ ih => exact .step h (ih h')
  have lift : ∀ {s : Ptr → Prop}, (∀ x, Reaches (afterCalls ops) d x → ¬s x) → CircleAhead (afterCalls ops) s d := by
    intro s hs
    have walk : ∀ {x y : Ptr}, Walks (afterCalls ops) (fun _ => False) x y → Reaches (afterCalls ops) d x → Walks (afterCalls ops) s x y := by
      intro x y h
      induction h with
      | refl => exact fun _ => .refl _
      | step _ h _ ih => exact fun hx => .step (hs _ hx) h (ih (trans hx (.step h (.refl _))))
    have h1 := reach hc1
    exact ⟨c, m, walk hc1 (.refl _), hs _ h1, hc2, walk hc3 (trans h1 (.step hc2 (.refl _)))⟩
  refine ⟨fun h => ?_, fun h => ?_⟩
  · obtain ⟨h1, h2, h3⟩ := C86_method ops hd hn
    have hg : (afterCalls ops).getMethod d n = .diverge := by
      rcases h3 with ⟨_ | r, h4⟩ | ⟨h4, _⟩
      · exact absurd (lift h) (h2.1 h4).2
      · obtain ⟨x, _, h6⟩ := (h1 r).1 h4
        have : ∀ {x}, ComesTo (afterCalls ops) (HasMethod (afterCalls ops) n) d x → Reaches (afterCalls ops) d x := by
          intro x hx
          generalize hd' : d = d' at hx
          clear hd'
          induction hx with
          | here _ => exact .refl _
          | base _ e hf _ _ ih => exact .step ((declared_iff _ _).2 (by simp [behind, e, hf])) ih
        exact absurd ⟨r, h6⟩ (h x (this ‹_›))
      · simp only [World.getMethod, if_neg hn, hd, h4]
    exact hg
  · obtain ⟨h1, h2, h3⟩ := C86_property ops hd hn
    have hg : (afterCalls ops).getProperty d n = .diverge := by
      rcases h3 with ⟨_ | r, h4⟩ | ⟨h4, _⟩
      · exact absurd (lift h) (h2.1 h4).2
      · obtain ⟨x, _, h6⟩ := (h1 r).1 h4
        have : ∀ {x}, ComesTo (afterCalls ops) (HasProperty (afterCalls ops) n) d x → Reaches (afterCalls ops) d x := by
          intro x hx
          generalize hd' : d = d' at hx
          clear hd'
          induction hx with
          | here _ => exact .refl _
          | base _ e hf _ _ ih => exact .step ((declared_iff _ _).2 (by simp [behind, e, hf])) ih
        exact absurd ⟨r, h6⟩ (h x (this ‹_›))
      · simp only [World.getProperty, hd, h4]
    exact hg

/-- C86: in a class from which a circle can be reached, no method and no property can be defined that none of the classes it can
    reach has: the search for one defined before never ends. -/
theorem C86_define (ops : List Op) {d : Ptr} (hd : (afterCalls ops).kind d = some .cls)
    (hc : CircleAhead (afterCalls ops) (fun _ => False) d) {n : Str} (hn : n ≠ []) :
    ((∀ c, Reaches (afterCalls ops) d c → ¬HasMethod (afterCalls ops) n c) →
      (afterCalls ops).step (.createMethod d n true) = (afterCalls ops, .diverge)) ∧
    ((∀ c, Reaches (afterCalls ops) d c → ¬HasProperty (afterCalls ops) n c) →
      (afterCalls ops).step (.createProperty d n true) = (afterCalls ops, .diverge)) := by
  obtain ⟨h1, h2⟩ := never ops hd hc hn
  refine ⟨fun h => ?_, fun h => ?_⟩
  · simp [World.step, isContainer, hd, World.createMethod, World.getOrCreate, h1 h]
  · simp [World.step, isContainer, hd, World.createProperty, hn, World.getOrCreate, h2 h]

/-- C86: nor does a value of such a class answer for a member that none of the classes has: invoking a method, getting and setting a
    property by that name never end (instead of throwing `runtime_error`). -/
theorem C86_members (ops : List Op) (E : Val.Env) (hw : E.w = afterCalls ops) (N : Val.Nest) (fn : Ptr → Val.Fn) (pr : Ptr → Val.Property)
    (i : Val.Inst) (args : List Val.Arg) (a : Val.Arg) {d : Ptr} (hc : Val.memberClass E i.v = .ok d)
    (hd : (afterCalls ops).kind d = some .cls) (hcirc : CircleAhead (afterCalls ops) (fun _ => False) d) {n : Str} (hn : n ≠ []) :
    ((∀ c, Reaches (afterCalls ops) d c → ¬HasMethod (afterCalls ops) n c) → Val.invokeNamed E N fn i n args = .diverge) ∧
    ((∀ c, Reaches (afterCalls ops) d c → ¬HasProperty (afterCalls ops) n c) →
      Val.getNamed E N pr i.v n = .diverge ∧ Val.setNamed E N pr i.v n a = .diverge) := by
  obtain ⟨h1, h2⟩ := never ops hd hcirc hn
  refine ⟨fun h => ?_, fun h => ⟨?_, ?_⟩⟩
  · simp [Val.invokeNamed, hc, hw, h1 h, Val.Ret.bind, Val.Ret.lift]
  · simp [Val.getNamed, hc, hw, h2 h, Val.Ret.bind, Val.Ret.lift]
  · simp [Val.setNamed, hc, hw, h2 h, Val.Ret.bind, Val.Ret.lift]

/-- C86: a value of class `f` asked whether it is of class `c`, or to be seen as `c`, never answers if the search from `f` runs into a
    circle before it comes to `c`. -/
theorem C86_values (ops : List Op) (E : Val.Env) (hw : E.w = afterCalls ops) (v : Val.Vnt) (c : Base) {t : TypeId} {a : Addr}
    (hi : Val.classInfo E v = .ok (t, a)) {f b : Ptr} (hf : E.w.find t = some f) (hb : E.w.find (E.tid c) = some b)
    (h1 : ¬ComesTo (afterCalls ops) (· = b) f b) (h2 : CircleAhead (afterCalls ops) (· = b) f) :
    Val.isImp E v c = .diverge ∧ Val.castImp E v c = .diverge := by
  rw [hw] at hf hb
  have hd := (Loose.calls ops).find_kind hf
  obtain ⟨g1, g2, g3⟩ := C86_inherited ops hd b
  have hv : (afterCalls ops).valid t = true := by
    unfold World.find at hf
    split at hf
    · assumption
    · cases hf
  rcases g3 with g | g | ⟨g, _⟩
  · exact absurd (g1.1 g) h1
  · exact absurd h2 (g2.1 g).2
  · have h3 := (C86_cast ops f b a).2.2 g
    constructor
    · simp [Val.isImp, hi, Val.Ret.bind, hw, hv, hf, hb, World.inheritedFrom, g, Val.Ret.lift]
    · simp [Val.castImp, hi, Val.Ret.bind, hw, hv, hf, hb, World.cast, h3, Val.Ret.lift]

/-! ### concrete cases -/

/-- classes `B`, `L`, `R`, `D` at 2 to 5, `L` and `R` bases of each other -/
private def circle (ops : List Op) : List Op :=
  [.registerType 1, .registerType 2, .registerType 3, .registerType 4, .createClass 1 ['B'] 1, .createClass 1 ['L'] 2,
    .createClass 1 ['R'] 3, .createClass 1 ['D'] 4, .createMethod 2 "f()".toList true, .addBase 3 3 id, .addBase 4 2 id] ++ ops

/-- `D` derived from `B` and `L` -/
private def behindIt : World := afterCalls (circle [.addBase 5 1 id, .addBase 5 2 id])
/-- `D` derived from `L` and `B` -/
private def beforeIt : World := afterCalls (circle [.addBase 5 2 id, .addBase 5 1 id])

-- the circle comes after the class that is looked for, or before it
example : behindIt.inheritedFrom 5 (some 2) = .val true ∧ behindIt.getMethod 5 ['f'] = .val (some 6) ∧
    beforeIt.inheritedFrom 5 (some 2) = .diverge ∧ beforeIt.getMethod 5 ['f'] = .diverge ∧ beforeIt.cast 5 (some 2) 100 = .diverge ∧
    beforeIt.inheritedFrom 5 (some 4) = .val true ∧ beforeIt.inheritedFrom 2 (some 5) = .val false := by decide +kernel

private theorem circular : CircleAhead beforeIt (fun _ => False) 5 :=
  ⟨3, 4, .step id ⟨0, by decide +kernel, by decide +kernel⟩ (.refl 3), id, ⟨0, by decide +kernel, by decide +kernel⟩, .step id ⟨0, by decide +kernel, by decide +kernel⟩ (.refl 3)⟩

private theorem reached {c : Ptr} (h : Reaches beforeIt 5 c) : c = 5 ∨ c = 3 ∨ c = 4 ∨ c = 2 := by
  have key : ∀ d c, Reaches beforeIt d c → (d = 5 ∨ d = 3 ∨ d = 4 ∨ d = 2) → c = 5 ∨ c = 3 ∨ c = 4 ∨ c = 2 := by
    intro d c h
    induction h with
    | refl => exact id
    | @step d m c hd _ ih =>
      intro he
      apply ih
      obtain ⟨k, hk, hm⟩ := hd
      rcases he with rfl | rfl | rfl | rfl
      · have h2 : beforeIt.baseClassCount 5 = 2 := by decide +kernel
        rcases (by omega : k = 0 ∨ k = 1) with rfl | rfl
        · have h3 : beforeIt.baseClass 5 0 = some 3 := by decide +kernel
          rw [h3] at hm; cases hm; simp
        · have h3 : beforeIt.baseClass 5 1 = some 2 := by decide +kernel
          rw [h3] at hm; cases hm; simp
      · have h2 : beforeIt.baseClassCount 3 = 1 := by decide +kernel
        obtain rfl : k = 0 := by omega
        have h3 : beforeIt.baseClass 3 0 = some 4 := by decide +kernel
        rw [h3] at hm; cases hm; simp
      · have h2 : beforeIt.baseClassCount 4 = 1 := by decide +kernel
        obtain rfl : k = 0 := by omega
        have h3 : beforeIt.baseClass 4 0 = some 3 := by decide +kernel
        rw [h3] at hm; cases hm; simp
      · have h2 : beforeIt.baseClassCount 2 = 0 := by decide +kernel
        omega
  exact key 5 c h (.inl rfl)

private theorem noProperty (n : Str) : ∀ c, Reaches beforeIt 5 c → ¬HasProperty beforeIt n c := by
  rintro c hc ⟨m, it, h, _⟩
  have h0 : ∀ d ∈ [5, 3, 4, 2], (beforeIt.cont d .property).items = [] := by decide +kernel
  rw [h0 c (by rcases reached hc with rfl | rfl | rfl | rfl <;> decide)] at h
  cases h

private theorem noMethod : ∀ c, Reaches beforeIt 5 c → ¬HasMethod beforeIt "g()".toList c := by
  rintro c hc h
  obtain ⟨m, hm⟩ := h
  have hm := methodOf_iff.2 hm
  have h0 : ∀ d ∈ [5, 3, 4, 2], methodOf beforeIt "g()".toList d = none := by decide +kernel
  rw [h0 c (by rcases reached hc with rfl | rfl | rfl | rfl <;> decide)] at hm
  cases hm

-- `C86_define`
example : beforeIt.kind 5 = some .cls ∧ beforeIt.step (.createMethod 5 "g()".toList true) = (beforeIt, .diverge) ∧
    beforeIt.step (.createProperty 5 ['p'] true) = (beforeIt, .diverge) :=
  have hk : (afterCalls (circle [.addBase 5 2 id, .addBase 5 1 id])).kind 5 = some .cls := by decide +kernel
  ⟨hk, (C86_define _ hk circular (by decide)).1 noMethod, (C86_define _ hk circular (n := ['p']) (by decide)).2 (noProperty _)⟩

-- `C86_members`, `C86_values`: a value of class `D`
private def circleEnv : Val.Env := { ExV.env with w := beforeIt }

example : Val.memberClass circleEnv ExV.vD = .ok 5 ∧ Val.classInfo circleEnv ExV.vD = .ok (4, 5000) ∧ circleEnv.w.find 4 = some 5 ∧
    circleEnv.w.find (circleEnv.tid ExV.B) = some 2 ∧ Val.isImp circleEnv ExV.vD ExV.B = .diverge ∧
    Val.is circleEnv ExV.vD false ⟨.none, ExV.cls ExV.B⟩ = .diverge := by decide +kernel

example (pr : Ptr → Val.Property) (N : Val.Nest) : Val.getNamed circleEnv N pr ExV.vD ['p'] = .diverge := by
  have hm : Val.memberClass circleEnv ExV.vD = .ok 5 := by decide +kernel
  have hk : (afterCalls (circle [.addBase 5 2 id, .addBase 5 1 id])).kind 5 = some .cls := by decide +kernel
  exact ((C86_members (circle [.addBase 5 2 id, .addBase 5 1 id]) circleEnv rfl N (fun _ => ⟨none, false, [], none⟩) pr
    ⟨false, ExV.vD, ⟨false, ExV.vD⟩⟩ [] ⟨false, ExV.vD⟩ hm hk circular (n := ['p']) (by decide)).2 (noProperty _)).1

end Rtti.Props
