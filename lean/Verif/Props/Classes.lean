import Verif.Examples.Worlds
/-
C25-C29: inheritance queries, base/derived lists, upcasts, inherited look-up.
-/
namespace Rtti.Props
open Rtti Spec World

/-! ### C25 -/

/-- C25: `inheritedFrom` always answers, and the answer is reachability over declared bases. -/
theorem C25_inheritedFrom_iff_reaches {rank} {w : World} (h : Reachable rank w) {d : Ptr}
    (hd : w.kind d = some .cls) (b : Ptr) :
    (w.inheritedFrom d (some b) = .val true ∧ Reaches w d b) ∨
    (w.inheritedFrom d (some b) = .val false ∧ ¬ Reaches w d b) := by
  obtain ⟨r, e, hr⟩ := (Inv.reachable h).inheritedFrom_spec d b hd
  cases r with
  | true => exact .inl ⟨e, hr.1 rfl⟩
  | false => exact .inr ⟨e, fun h => by simpa using hr.2 h⟩

/-- C25: nobody inherits from null. -/
theorem C25_null (w : World) (d : Ptr) : w.inheritedFrom d none = .val false := rfl

/-- C25: the relation is a partial order on the classes. -/
theorem C25_partial_order {rank} {w : World} (h : Reachable rank w) {a b c : Ptr}
    (ha : w.kind a = some .cls) :
    w.inheritedFrom a (some a) = .val true ∧
    (w.inheritedFrom a (some b) = .val true → w.inheritedFrom b (some c) = .val true →
      w.inheritedFrom a (some c) = .val true) ∧
    (w.inheritedFrom a (some b) = .val true → w.inheritedFrom b (some a) = .val true → a = b) := by
  have i := Inv.reachable h
  have key : ∀ {x y}, w.kind x = some .cls → (w.inheritedFrom x (some y) = .val true ↔ Reaches w x y) := by
    intro x y hx
    rcases C25_inheritedFrom_iff_reaches h hx y with ⟨h1, h2⟩ | ⟨h1, h2⟩
    · simp [h1, h2]
    · simp [h1, h2]
  refine ⟨(key ha).2 (.refl a), fun h1 h2 => ?_, fun h1 h2 => ?_⟩
  · have h1' := (key ha).1 h1
    have hb := Reaches.kind i h1' ha
    exact (key ha).2 (Reaches.trans h1' ((key hb).1 h2))
  · have h1' := (key ha).1 h1
    have hb := Reaches.kind i h1' ha
    have h2' := (key hb).1 h2
    have hle : ∀ {x y}, w.kind x = some .cls → Reaches w x y →
        x = y ∨ rank (w.cls y).typeId < rank (w.cls x).typeId := by
      intro x y hx hr
      induction hr with
      | refl => exact .inl rfl
      | step hd _ ih =>
        obtain ⟨z, hz, hq⟩ := (declaredBase_iff i _ _).1 hd
        obtain ⟨hk, ht⟩ := i.find_cls hq
        have := i.ranked _ hx z hz
        rcases ih hk with rfl | ih
        · right; rw [ht]; exact this
        · right; rw [ht] at ih; omega
    rcases hle ha h1' with e | e
    · exact e
    · rcases hle hb h2' with e' | e'
      · exact e'.symm
      · omega

/-- The precondition of `Legal` is needed: a class declared as its own base (which `_base` accepts)
    makes `inheritedFrom` recurse without end, whatever the stack size. -/
theorem C25_self_base_diverges : ∃ (w : World) (d b : Ptr), w = World.init.run
      [.registerType 1, .registerType 2, .createClass 1 ['A'] 1, .createClass 1 ['B'] 2, .addBase 2 1 id] ∧
    w.kind d = some .cls ∧ w.kind b = some .cls ∧
    ∀ fuel, w.inheritedFromF fuel d (some b) = .diverge := by
  refine ⟨_, 2, 3, rfl, by decide, by decide, ?_⟩
  generalize hw : World.init.run _ = w
  have hb : ((w.cls 2).bases.map (·.1)) = [1] := by subst hw; decide
  have hf : w.find 1 = some 2 := by subst hw; decide
  clear hw
  intro fuel
  induction fuel with
  | zero => rfl
  | succ n ih =>
    cases hl : (w.cls 2).bases with
    | nil => rw [hl] at hb; cases hb
    | cons x l =>
      rw [hl] at hb
      simp only [List.map_cons, List.cons.injEq] at hb
      unfold inheritedFromF
      simp [hl, anyBase, hb.1, hf, ih]

example : Ex.diamond.kind 5 = some .cls ∧ Ex.diamond.inheritedFrom 5 (some 2) = .val true ∧
    Ex.diamond.inheritedFrom 3 (some 4) = .val false := by decide

/-! ### C26 -/

/-- `d` is listed among the derived classes of `b` -/
def ListedDerived (w : World) (b d : Ptr) : Prop :=
  ∃ i, i < w.derivedClassCount b ∧ w.derivedClass b i = some d

/-- C26: the lists mirror each other. -/
theorem C26_mirror {rank} {w : World} (h : Reachable rank w) {d b : Ptr} (hd : w.kind d = some .cls)
    (hb : w.kind b = some .cls) : DeclaredBase w d b ↔ ListedDerived w b d := by
  have i := Inv.reachable h
  have hfind : ∀ {p}, w.kind p = some .cls → w.find (w.cls p).typeId = some p := by
    intro p hp
    have hm := i.cm p hp
    simp [find, hm, (i.mc _ _ hm).1]
  rw [declaredBase_iff i]
  unfold ListedDerived derivedClassCount derivedClass
  constructor
  · rintro ⟨x, hx, hq⟩
    obtain ⟨b', h1, h2⟩ := i.bases d hd x hx
    obtain ⟨h3, h4, h5⟩ := i.mc _ _ h1
    have : b' = b := by
      have : w.find x.1 = some b' := by simp [find, h3, h1]
      rw [this] at hq; simpa using hq
    subst this
    obtain ⟨k, hk, e⟩ := List.mem_iff_getElem.1 h2
    exact ⟨k, hk, by rw [dif_pos hk, e]; exact hfind hd⟩
  · rintro ⟨k, hk, e⟩
    rw [dif_pos hk] at e
    obtain ⟨d', h1, h2⟩ := i.derived b hb _ (List.getElem_mem hk)
    obtain ⟨h3, h4, h5⟩ := i.mc _ _ h1
    have : d' = d := by
      have : w.find ((w.cls b).derived[k]) = some d' := by simp [find, h3, h1]
      rw [this] at e; simpa using e
    subst this
    obtain ⟨x, hx, hx2⟩ := List.mem_map.1 h2
    exact ⟨x, hx, by rw [hx2]; exact hfind hb⟩

/-- C26: every listed base / derived class is a registered class, each is listed once, and indices
    out of range give null. -/
theorem C26_lists {rank} {w : World} (h : Reachable rank w) {c : Ptr} (hc : w.kind c = some .cls) :
    (∀ i, i < w.baseClassCount c → ∃ b, w.baseClass c i = some b ∧ w.kind b = some .cls) ∧
    (∀ i, i < w.derivedClassCount c → ∃ d, w.derivedClass c i = some d ∧ w.kind d = some .cls) ∧
    (∀ i j, i < w.baseClassCount c → j < w.baseClassCount c → w.baseClass c i = w.baseClass c j → i = j) ∧
    (∀ i j, i < w.derivedClassCount c → j < w.derivedClassCount c →
      w.derivedClass c i = w.derivedClass c j → i = j) ∧
    (∀ i, ¬ i < w.baseClassCount c → w.baseClass c i = none) ∧
    (∀ i, ¬ i < w.derivedClassCount c → w.derivedClass c i = none) := by
  have inv := Inv.reachable h
  have hb : ∀ i (hi : i < (w.cls c).bases.length), ∃ b, w.find (w.cls c).bases[i].1 = some b ∧
      w.kind b = some .cls ∧ (w.cls b).typeId = (w.cls c).bases[i].1 :=
    fun i hi => inv.find_base hc (List.getElem_mem hi)
  have hd : ∀ i (hi : i < (w.cls c).derived.length), ∃ b, w.find (w.cls c).derived[i] = some b ∧
      w.kind b = some .cls ∧ (w.cls b).typeId = (w.cls c).derived[i] := by
    intro i hi
    obtain ⟨d, h1, h2⟩ := inv.derived c hc _ (List.getElem_mem hi)
    obtain ⟨h3, h4, h5⟩ := inv.mc _ _ h1
    exact ⟨d, by simp [find, h3, h1], h4, h5⟩
  have h0 : w.find 0 = none := by simp [find, inv.valid0]
  have nodup_inj : ∀ {A : Type} (l : List A), l.Nodup → ∀ i j (hi : i < l.length) (hj : j < l.length),
      l[i] = l[j] → i = j := by
    intro A l hl i j hi hj e
    rw [List.Nodup, List.pairwise_iff_getElem] at hl
    rcases Nat.lt_trichotomy i j with hlt | heq | hgt
    · exact absurd e (hl i j hi hj hlt)
    · exact heq
    · exact absurd e.symm (hl j i hj hi hgt)
  unfold baseClassCount derivedClassCount baseClass derivedClass
  refine ⟨fun i hi => ?_, fun i hi => ?_, fun i j hi hj e => ?_, fun i j hi hj e => ?_,
    fun i hi => ?_, fun i hi => ?_⟩
  · obtain ⟨b, h1, h2, _⟩ := hb i hi; exact ⟨b, by rw [dif_pos hi]; exact h1, h2⟩
  · obtain ⟨b, h1, h2, _⟩ := hd i hi; exact ⟨b, by rw [dif_pos hi]; exact h1, h2⟩
  · rw [dif_pos hi, dif_pos hj] at e
    obtain ⟨b, h1, _, h2⟩ := hb i hi
    obtain ⟨b', h1', _, h2'⟩ := hb j hj
    rw [h1, h1'] at e
    have e' : b = b' := by simpa using e
    subst e'
    have := inv.bnodup c hc
    refine nodup_inj _ this i j (by simpa using hi) (by simpa using hj) ?_
    simp only [List.getElem_map]
    rw [← h2, ← h2']
  · rw [dif_pos hi, dif_pos hj] at e
    obtain ⟨b, h1, _, h2⟩ := hd i hi
    obtain ⟨b', h1', _, h2'⟩ := hd j hj
    rw [h1, h1'] at e
    have e' : b = b' := by simpa using e
    subst e'
    exact nodup_inj _ (inv.dnodup c hc) i j hi hj (by rw [← h2, ← h2'])
  · rw [dif_neg hi]; exact h0
  · rw [dif_neg hi]; exact h0

/-- C26: order of first declaration. A base declaration that is not refused appends the new base and
    cast function to the declaring class and the declaring class to the base's derived list; a repeated
    one changes nothing (the first cast function stays); no other list changes. -/
theorem C26_declaration_order {rank} {w : World} (h : Reachable rank w) {d b : Ptr} {t : TypeId}
    (c : Caster) (hd : w.kind d = some .cls) (hb : w.find t = some b)
    (hl : Legal rank w (.addBase d t c)) :
    let w' := (w.addBaseClass d t c).1
    (w.addBaseClass d t c).2 = .val () ∧
    (t ∈ (w.cls d).bases.map (·.1) → w'.cls = w.cls) ∧
    (t ∉ (w.cls d).bases.map (·.1) →
      (w'.cls d).bases = (w.cls d).bases ++ [(t, c)] ∧
      (w'.cls b).derived = (w.cls b).derived ++ [(w.cls d).typeId] ∧
      (∀ q, q ≠ d → (w'.cls q).bases = (w.cls q).bases) ∧
      (∀ q, q ≠ b → (w'.cls q).derived = (w.cls q).derived)) := by
  have i := Inv.reachable h
  obtain ⟨hbk, hbt⟩ := i.find_cls hb
  have hm : w.metaClass t = some b := by rw [← hbt]; exact i.cm b hbk
  have hv : w.valid t = true := (i.mc _ _ hm).1
  have hne : b ≠ d := by
    rintro rfl
    simp only [Legal, hbt] at hl; omega
  have hnd : d ≠ b := fun e => hne e.symm
  rcases addBaseClass_eq i d hd t c with ⟨h1, _⟩ | ⟨_, h1, _⟩ | ⟨b', h1, h2, h3, h4⟩
  · rw [hv] at h1; cases h1
  · rw [hm] at h1; cases h1
  · rw [hm] at h2
    have h2' : b = b' := by simpa using h2
    subst h2'
    have hany : ((w.cls d).bases.any fun it => t == it.1) = true ↔ t ∈ (w.cls d).bases.map (·.1) := by
      simp only [List.any_eq_true, List.mem_map, beq_iff_eq]
      constructor
      · rintro ⟨x, hx, e⟩; exact ⟨x, hx, e.symm⟩
      · rintro ⟨x, hx, e⟩; exact ⟨x, hx, e.symm⟩
    have hmir : t ∈ (w.cls d).bases.map (·.1) ↔ (w.cls d).typeId ∈ (w.cls b).derived := by
      constructor
      · intro ht
        obtain ⟨x, hx, hx2⟩ := List.mem_map.1 ht
        obtain ⟨q, hq1, hq2⟩ := i.bases d hd x hx
        rw [hx2, hm] at hq1
        have : b = q := by simpa using hq1
        rw [this]; exact hq2
      · intro ht
        obtain ⟨q, hq1, hq2⟩ := i.derived b hbk _ ht
        rw [i.cm d hd] at hq1
        have : d = q := by simpa using hq1
        rw [← hbt, this]; exact hq2
    dsimp only
    rw [h4]
    refine ⟨h3, fun ht => ?_, fun ht => ?_⟩
    · have hb1 : basesAdd (w.cls d).bases t c = (w.cls d).bases := by
        simp only [basesAdd, hany.2 ht, if_true]
      have hd1 : derivedAdd (w.cls b).derived (w.cls d).typeId = (w.cls b).derived := by
        simp [derivedAdd, hmir.1 ht]
      funext q
      simp only
      by_cases e2 : q = b
      · subst e2; simp only [upd_same, upd_ne _ _ hne, hd1]
      · rw [upd_ne _ _ e2]
        by_cases e1 : q = d
        · subst e1; simp only [upd_same, hb1]
        · rw [upd_ne _ _ e1]
    · have hb1 : basesAdd (w.cls d).bases t c = (w.cls d).bases ++ [(t, c)] := by
        unfold basesAdd; rw [if_neg (fun e => ht (hany.1 e))]
      have hd1 : derivedAdd (w.cls b).derived (w.cls d).typeId
          = (w.cls b).derived ++ [(w.cls d).typeId] := by
        unfold derivedAdd; rw [if_neg]
        intro e; exact ht (hmir.2 (by simpa using e))
      refine ⟨?_, ?_, fun q hq => ?_, fun q hq => ?_⟩
      · simp only [upd_ne _ _ hnd, upd_same, hb1]
      · simp only [upd_same, upd_ne _ _ hne, hd1]
      · simp only
        by_cases e2 : q = b
        · subst e2; simp only [upd_same, upd_ne _ _ hne]
        · rw [upd_ne _ _ e2, upd_ne _ _ hq]
      · simp only
        rw [upd_ne _ _ hq]
        by_cases e1 : q = d
        · subst e1; simp only [upd_same]
        · rw [upd_ne _ _ e1]

/-- C26: calls that do not declare a base of `d` leave the bases of `d` alone (and new classes have
    none), so the list is exactly the history of its declarations. -/
theorem C26_other_calls {rank} {w : World} (h : Reachable rank w) (op : Op) (hl : Legal rank w op)
    {d : Ptr} (hd : w.kind d = some .cls) (hop : ∀ t c, op ≠ .addBase d t c) :
    ((w.step op).1.cls d).bases = (w.cls d).bases := by
  have i := Inv.reachable h
  cases op with
  | addBase this t c =>
    have hne : d ≠ this := by rintro rfl; exact hop t c rfl
    simp only [World.step]
    split
    · rename_i hk
      have : ((w.addBaseClass this t c).1.cls d).bases = (w.cls d).bases := by
        rcases addBaseClass_eq i this hk t c with ⟨_, h1⟩ | ⟨_, _, h1⟩ | ⟨b', h1, h2, h3, h4⟩
        · rw [h1]
        · rw [h1]
        · rw [h4]
          simp only
          by_cases e : d = b'
          · subst e; simp only [upd_same, upd_ne _ _ hne]
          · rw [upd_ne _ _ e, upd_ne _ _ hne]
      split <;> (rename_i h; rw [h] at this; exact this)
    · rfl
  | registerType t => simp only [World.step]; split <;> rfl
  | _ =>
    have hne := i.kind_ne_next hd
    have hcls : ∀ o k n t look stored, (∀ w p, (stored w p : World).cls = w.cls) →
        (w.getOrCreate o k n t look stored).1.cls d = w.cls d := by
      intro o k n t look stored hst
      unfold World.getOrCreate
      split
      · dsimp only
        split
        · rw [hst]; simp [addItem, alloc, upd_ne _ _ hne]
        · simp [free, addItem, alloc, upd_ne _ _ hne]
      · rfl
    simp only [World.step, createNamespace, createEnum, createClass, createMethod, createProperty,
      createConstructor]
    repeat' split
    all_goals first | rfl | (rw [hcls]; intro _ _; rfl)

example : Ex.diamond.baseClassCount 5 = 2 ∧ Ex.diamond.baseClass 5 0 = some 3 ∧
    Ex.diamond.baseClass 5 1 = some 4 ∧ Ex.diamond.baseClass 5 2 = none ∧
    Ex.diamond.derivedClass 2 1 = some 4 := by decide
example : Ex.diamond.find 1 = some 2 ∧ Legal id Ex.diamond (.addBase 5 1 id) ∧
    1 ∉ (Ex.diamond.cls 5).bases.map (·.1) ∧ 2 ∈ (Ex.diamond.cls 5).bases.map (·.1) := by
  refine ⟨by decide, ?_, by decide, by decide⟩
  simp only [Legal]; decide

/-! ### C27 -/

/-- C27: a cast to an ancestor applies the cast functions along the leftmost declared path, any other
    cast gives null; there is exactly one leftmost path. -/
theorem C27_upcast {rank} {w : World} (h : Reachable rank w) {d : Ptr} (hd : w.kind d = some .cls)
    (b : Ptr) (a : Addr) :
    (Reaches w d b → ∃ fs, LeftPath w d b fs ∧ Path w d b fs ∧ (∀ gs, LeftPath w d b gs → gs = fs) ∧
      w.cast d (some b) a = .val (applyCasts fs a)) ∧
    (¬ Reaches w d b → w.cast d (some b) a = .val 0) ∧
    w.cast d none a = .val 0 ∧
    w.cast d (some d) a = .val a := by
  have i := Inv.reachable h
  obtain ⟨h1, h2⟩ := i.castF_spec b w.depth d a hd (below_lt_depth rank w d)
  refine ⟨fun hr => ?_, h2, rfl, by simp [World.cast, depth, castF]⟩
  obtain ⟨fs, h3, h4⟩ := h1 hr
  exact ⟨fs, h3, LeftPath.path h3, fun gs hg => LeftPath.unique i hg h3, h4⟩

/-- C27: with cast functions that keep non-null addresses non-null, the result is null exactly when the
    target is not the class itself or an ancestor. -/
theorem C27_null_iff {rank} {w : World} (h : Reachable rank w) {d : Ptr} (hd : w.kind d = some .cls)
    (hnn : ∀ p, w.kind p = some .cls → ∀ x ∈ (w.cls p).bases, ∀ a, a ≠ 0 → x.2 a ≠ 0)
    (b : Ptr) {a : Addr} (ha : a ≠ 0) : w.cast d (some b) a = .val 0 ↔ ¬ Reaches w d b := by
  have i := Inv.reachable h
  constructor
  · intro hc hr
    have : ∀ fs d b, w.kind d = some .cls → Path w d b fs → ∀ a, a ≠ 0 → applyCasts fs a ≠ 0 := by
      intro fs d b hd hp
      induction hp with
      | refl => intro a ha; exact ha
      | step hm hf _ ih =>
        intro a ha
        exact ih (i.find_cls hf).1 _ (hnn _ hd _ hm a ha)
    obtain ⟨fs, _, hp, _, h4⟩ := (C27_upcast h hd b a).1 hr
    rw [hc] at h4
    injection h4 with h4
    exact this fs d b hd hp a ha h4.symm
  · exact (C27_upcast h hd b a).2.1

example : Ex.diamond.cast 5 (some 4) 100 = .val 108 ∧ Ex.diamond.cast 5 (some 2) 100 = .val 100 ∧
    Ex.diamond.cast 2 (some 5) 100 = .val 0 := by decide
example : ∀ p, Ex.diamond.kind p = some .cls → ∀ x ∈ (Ex.diamond.cls p).bases, ∀ a, a ≠ 0 → x.2 a ≠ 0 := by
  intro p hp
  have hlt := ((Inv.reachable Ex.diamond_reachable).kind_lt _ _ hp).2
  have e : Ex.diamond.next = 10 := by decide
  rw [e] at hlt
  have h3 : (Ex.diamond.cls 3).bases = [(1, id)] := rfl
  have h4 : (Ex.diamond.cls 4).bases = [(1, id)] := rfl
  have h5 : (Ex.diamond.cls 5).bases = [(2, id), (3, (· + 8))] := rfl
  have hz : ∀ q, q < 10 → q ≠ 3 → q ≠ 4 → q ≠ 5 → (Ex.diamond.cls q).bases.length = 0 := by decide
  by_cases e3 : p = 3
  · subst e3; rw [h3]; simp
  by_cases e4 : p = 4
  · subst e4; rw [h4]; simp
  by_cases e5 : p = 5
  · subst e5; rw [h5]; simp
  · rw [List.length_eq_zero_iff.1 (hz p hlt e3 e4 e5)]; simp

/-! ### C28 -/

/-- C28: with a unique subobject the cast gives the address any declared path gives. -/
theorem C28_any_path {rank} {w : World} (h : Reachable rank w) {d b : Ptr} (hd : w.kind d = some .cls)
    {a : Addr} (hco : Coherent w d b a) {fs : List Caster} (hp : Path w d b fs) :
    w.cast d (some b) a = .val (applyCasts fs a) := by
  obtain ⟨gs, _, h2, _, h4⟩ := (C27_upcast h hd b a).1 (Path.reaches (Inv.reachable h) hp)
  rw [h4, hco gs fs h2 hp]

/-- C28: casting in two steps equals casting directly. -/
theorem C28_two_steps {rank} {w : World} (h : Reachable rank w) {d m b : Ptr}
    (hd : w.kind d = some .cls) {a : Addr} (hco : Coherent w d b a) (h1 : Reaches w d m)
    (h2 : Reaches w m b) :
    ∃ a', w.cast d (some m) a = .val a' ∧ w.cast m (some b) a' = w.cast d (some b) a := by
  obtain ⟨fs, _, hp, _, e⟩ := (C27_upcast h hd m a).1 h1
  have hm := Reaches.kind (Inv.reachable h) h1 hd
  obtain ⟨gs, _, hp', _, e'⟩ := (C27_upcast h hm b (applyCasts fs a)).1 h2
  refine ⟨_, e, ?_⟩
  rw [e', C28_any_path h hd hco (Path.trans hp hp')]
  simp [applyCasts, List.foldl_append]

/-- C28: permuting the base declarations does not change the cast. -/
theorem C28_permutation {rank} {w w' : World} (h : Reachable rank w) (h' : Reachable rank w')
    (hf : w'.find = w.find) (hp : ∀ p, ((w'.cls p).bases).Perm ((w.cls p).bases))
    {d b : Ptr} (hd : w.kind d = some .cls) (hd' : w'.kind d = some .cls) {a : Addr}
    (hco : Coherent w d b a) : w'.cast d (some b) a = w.cast d (some b) a := by
  have hpath : ∀ {x y fs}, Path w' x y fs ↔ Path w x y fs := by
    intro x y fs
    constructor
    · intro hq
      induction hq with
      | refl => exact .refl _
      | step h1 h2 _ ih => exact .step ((hp _).mem_iff.1 h1) (by rw [← hf]; exact h2) ih
    · intro hq
      induction hq with
      | refl => exact .refl _
      | step h1 h2 _ ih => exact .step ((hp _).mem_iff.2 h1) (by rw [hf]; exact h2) ih
  by_cases hr : Reaches w d b
  · obtain ⟨fs, hfs⟩ := Reaches.path (Inv.reachable h) hr
    rw [C28_any_path h hd hco hfs,
      C28_any_path h' hd' (fun x y hx hy => hco x y (hpath.1 hx) (hpath.1 hy)) (hpath.2 hfs)]
  · have hr' : ¬ Reaches w' d b := by
      intro hr'
      obtain ⟨fs, hfs⟩ := Reaches.path (Inv.reachable h') hr'
      exact hr (Path.reaches (Inv.reachable h) (hpath.1 hfs))
    rw [(C27_upcast h hd b a).2.1 hr, (C27_upcast h' hd' b a).2.1 hr']

/-- C28, last clause: in a non-virtual diamond there is a path to each of the two `B` subobjects and
    the first declared one is chosen. -/
theorem C28_diamond_picks_first : ∃ (w : World) (d b : Ptr) (fs gs : List Caster) (a : Addr),
    Reachable id w ∧ w.kind d = some .cls ∧ Path w d b fs ∧ Path w d b gs ∧
    applyCasts fs a ≠ applyCasts gs a ∧ w.cast d (some b) a = .val (applyCasts fs a) ∧
    w.baseClass d 0 = some 3 ∧ fs.length = 2 := by
  refine ⟨Ex.diamond, 5, 2, [id, id], [(· + 8), id], 100, Ex.diamond_reachable, by decide, ?_, ?_,
    by decide, by decide, by decide, rfl⟩
  · exact .step (t := 2) (m := 3) (.head _) rfl (.step (t := 1) (.head _) rfl (.refl _))
  · exact .step (t := 3) (m := 4) (.tail _ (.head _)) rfl (.step (t := 1) (.head _) rfl (.refl _))

/- the hypotheses of C28 are met by a two-level cast with an offset -/
example : Reaches Ex.diamond 5 4 ∧ Coherent Ex.diamond 5 4 100 ∧ Ex.diamond.cast 5 (some 4) 100 = .val 108 := by
  refine ⟨.step (m := 4) ⟨1, by decide, by decide⟩ (.refl _), ?_, by decide⟩
  have i := Inv.reachable Ex.diamond_reachable
  have h4 : ∀ fs, Path Ex.diamond 4 4 fs → fs = [] := by
    intro fs hp
    cases hp with
    | refl => rfl
    | @step _ m _ t f fs h1 h2 h3 =>
      have : (Ex.diamond.cls 4).bases = [(1, id)] := rfl
      rw [this] at h1
      simp only [List.mem_singleton, Prod.mk.injEq] at h1
      obtain ⟨rfl, rfl⟩ := h1
      have : m = 2 := by have h : Ex.diamond.find 1 = some 2 := rfl; rw [h] at h2; simpa using h2.symm
      subst this
      rcases C25_inheritedFrom_iff_reaches Ex.diamond_reachable (d := 2) (by decide) 4 with ⟨h, _⟩ | ⟨_, h⟩
      · exact absurd h (by decide)
      · exact absurd (Path.reaches i h3) h
  have h5 : ∀ fs, Path Ex.diamond 5 4 fs → fs = [(· + 8)] := by
    intro fs hp
    cases hp with
    | @step _ m _ t f fs h1 h2 h3 =>
      have : (Ex.diamond.cls 5).bases = [(2, id), (3, (· + 8))] := rfl
      rw [this] at h1
      simp only [List.mem_cons, Prod.mk.injEq, List.not_mem_nil, or_false] at h1
      rcases h1 with ⟨rfl, rfl⟩ | ⟨rfl, rfl⟩
      · have : m = 3 := by have h : Ex.diamond.find 2 = some 3 := rfl; rw [h] at h2; simpa using h2.symm
        subst this
        rcases C25_inheritedFrom_iff_reaches Ex.diamond_reachable (d := 3) (by decide) 4 with ⟨h, _⟩ | ⟨_, h⟩
        · exact absurd h (by decide)
        · exact absurd (Path.reaches i h3) h
      · have : m = 4 := by have h : Ex.diamond.find 3 = some 4 := rfl; rw [h] at h2; simpa using h2.symm
        subst this
        rw [h4 _ h3]
  intro fs gs h1 h2
  rw [h5 _ h1, h5 _ h2]

/-! ### C29 -/

/-- C29 for methods: look-up always answers; it answers `m` exactly when `m` is the first in
    depth-first declaration order, own methods first; and null exactly when neither the class nor any
    ancestor has one. -/
theorem C29_methods {rank} {w : World} (h : Reachable rank w) {c : Ptr} (hc : w.kind c = some .cls)
    {q : Str} (hq : q ≠ []) :
    (∃ r, w.getMethod c q = .val r) ∧
    (∀ m, w.getMethod c q = .val (some m) ↔ Finds w (OwnMethod w q) c m) ∧
    (w.getMethod c q = .val none ↔ ∀ a m, Reaches w c a → ¬ OwnMethod w q a m) ∧
    (∀ m, OwnMethod w q c m → w.getMethod c q = .val (some m)) := by
  have i := Inv.reachable h
  obtain ⟨r, e, h1, h2⟩ := i.classMethodF_spec q hq w.depth c hc (below_lt_depth _ _ _)
  have hg : w.getMethod c q = .val r := by simp only [getMethod, if_neg hq, hc]; exact e
  have hfin : ∀ m, w.getMethod c q = .val (some m) ↔ Finds w (OwnMethod w q) c m := by
    intro m
    rw [hg]
    constructor
    · intro h; injection h with h; exact h1 m h
    · intro hf
      cases r with
      | none =>
        obtain ⟨a, ha, hb⟩ := Finds.exists_own i hf
        exact absurd hb (h2 rfl a m ha)
      | some m' =>
        rw [Finds.unique i (Own := OwnMethod w q) (fun _ _ _ => OwnMethod.unique) hf (h1 m' rfl)]
  refine ⟨⟨r, hg⟩, hfin, ?_, fun m hm => (hfin m).2 (.own hm)⟩
  rw [hg]
  constructor
  · intro h; injection h with h; exact h2 h
  · intro hno
    cases r with
    | none => rfl
    | some m =>
      obtain ⟨a, ha, hb⟩ := Finds.exists_own i (h1 m rfl)
      exact absurd hb (hno a m ha)

/-- C29 for properties. -/
theorem C29_properties {rank} {w : World} (h : Reachable rank w) {c : Ptr} (hc : w.kind c = some .cls)
    {q : Str} (hq : q ≠ []) :
    (∃ r, w.getProperty c q = .val r) ∧
    (∀ m, w.getProperty c q = .val (some m) ↔ Finds w (OwnProperty w q) c m) ∧
    (w.getProperty c q = .val none ↔ ∀ a m, Reaches w c a → ¬ OwnProperty w q a m) ∧
    (∀ m, OwnProperty w q c m → w.getProperty c q = .val (some m)) := by
  have i := Inv.reachable h
  obtain ⟨r, e, h1, h2⟩ := i.classPropertyF_spec q hq w.depth c hc (below_lt_depth _ _ _)
  have hg : w.getProperty c q = .val r := by simp only [getProperty, hc]; exact e
  have hfin : ∀ m, w.getProperty c q = .val (some m) ↔ Finds w (OwnProperty w q) c m := by
    intro m
    rw [hg]
    constructor
    · intro h; injection h with h; exact h1 m h
    · intro hf
      cases r with
      | none =>
        obtain ⟨a, ha, hb⟩ := Finds.exists_own i hf
        exact absurd hb (h2 rfl a m ha)
      | some m' =>
        rw [Finds.unique i (Own := OwnProperty w q) (fun _ _ _ => i.ownProperty_unique hq) hf (h1 m' rfl)]
  refine ⟨⟨r, hg⟩, hfin, ?_, fun m hm => (hfin m).2 (.own hm)⟩
  rw [hg]
  constructor
  · intro h; injection h with h; exact h2 h
  · intro hno
    cases r with
    | none => rfl
    | some m =>
      obtain ⟨a, ha, hb⟩ := Finds.exists_own i (h1 m rfl)
      exact absurd hb (hno a m ha)

/-- C29: the empty name finds nothing. -/
theorem C29_empty_name {rank} {w : World} (_ : Reachable rank w) {c : Ptr} (hc : w.kind c = some .cls) :
    w.getMethod c [] = .val none ∧ w.getProperty c [] = .val none := by
  constructor
  · rfl
  · simp [getProperty, hc, depth, classPropertyF]

/-- C29: constructors are looked up in the class itself only. -/
theorem C29_constructors_not_inherited {rank} {w : World} (_ : Reachable rank w) {c : Ptr}
    (hc : w.kind c = some .cls) (q : Str) :
    (∀ m, w.getConstructor c q = .val (some m) ↔
      ∃ x, IsFirst (fun it : Item => Denotes q it.name) (w.cont c .constructor).items x ∧ x.ptr = m) ∧
    (w.getConstructor c q = .val none ↔ ∀ x ∈ (w.cont c .constructor).items, ¬ Denotes q x.name) := by
  have ho : w.isContainer c = true := by simp [isContainer, hc]
  unfold getConstructor
  rw [if_pos ho]
  obtain ⟨r, e, h1, h2⟩ := findMethod_spec q (w.cont c .constructor).items
  rw [e]
  cases r with
  | none =>
    constructor
    · intro m
      constructor
      · intro h; simp at h
      · rintro ⟨x, hx, _⟩
        have := (h1 x).2 hx
        cases this
    · constructor
      · intro _; exact h2.1 rfl
      · intro _; rfl
  | some x =>
    constructor
    · intro m
      constructor
      · intro h
        simp only [Res.val.injEq, Option.some.injEq] at h
        exact ⟨x, (h1 x).1 rfl, h⟩
      · rintro ⟨y, hy, hm⟩
        have e2 := (h1 y).2 hy
        simp only [Option.some.injEq] at e2
        subst e2; subst hm; rfl
    · constructor
      · intro h; simp at h
      · intro h
        obtain ⟨pre, post, h3, h4, _⟩ := (h1 x).1 rfl
        exact absurd h4 (h x (by rw [h3]; simp))

example : Ex.diamond.getMethod 5 ['f'] = .val (some 6) ∧ Ex.diamond.getMethod 5 ['g', '(', ')'] = .val (some 9)
    ∧ Ex.diamond.getProperty 5 ['p'] = .val (some 7) ∧ Ex.diamond.getMethod 5 ['x'] = .val none ∧
    Ex.diamond.getConstructor 2 ['c'] = .val (some 8) ∧ Ex.diamond.getConstructor 5 ['c'] = .val none := by
  decide

end Rtti.Props
