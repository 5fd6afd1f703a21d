import Verif.Lemmas.WorldStep
namespace Rtti
open Spec
namespace World

theorem Inv.find_base {rank} {w : World} (i : Inv rank w) {p : Ptr} (hp : w.kind p = some .cls)
    {x : TypeId × Caster} (hx : x ∈ (w.cls p).bases) :
    ∃ q, w.find x.1 = some q ∧ w.kind q = some .cls ∧ (w.cls q).typeId = x.1 := by
  obtain ⟨b, h1, h2⟩ := i.bases p hp x hx
  obtain ⟨h3, h4, h5⟩ := i.mc _ _ h1
  exact ⟨b, by simp [find, h3, h1], h4, h5⟩

theorem Inv.find_cls {rank} {w : World} (i : Inv rank w) {t : TypeId} {q : Ptr}
    (h : w.find t = some q) : w.kind q = some .cls ∧ (w.cls q).typeId = t := by
  unfold find at h
  split at h
  · exact (i.mc _ _ h).2
  · cases h

theorem declaredBase_iff {rank} {w : World} (_ : Inv rank w) (d b : Ptr) :
    DeclaredBase w d b ↔ ∃ x ∈ (w.cls d).bases, w.find x.1 = some b := by
  unfold DeclaredBase baseClass baseClassCount
  constructor
  · rintro ⟨k, hk, h⟩
    rw [dif_pos hk] at h
    exact ⟨_, List.getElem_mem hk, h⟩
  · rintro ⟨x, hx, h⟩
    obtain ⟨k, hk, rfl⟩ := List.mem_iff_getElem.1 hx
    exact ⟨k, hk, by rw [dif_pos hk]; exact h⟩

/-- number of classes of smaller rank: a rank bounded by the number of objects -/
def below (rank : TypeId → Nat) (w : World) (p : Ptr) : Nat :=
  ((List.range w.next).filter (fun q => decide (rank (w.cls q).typeId < rank (w.cls p).typeId))).length

theorem below_lt_depth (rank : TypeId → Nat) (w : World) (p : Ptr) : below rank w p < w.depth := by
  have := List.length_filter_le (fun q => decide (rank (w.cls q).typeId < rank (w.cls p).typeId)) (List.range w.next)
  simp [below, depth] at *; omega

theorem filter_length_lt {A : Type} (l : List A) (P Q : A → Bool) (h : ∀ a, P a = true → Q a = true)
    (a : A) (ha : a ∈ l) (hq : Q a = true) (hp : P a = false) :
    (l.filter P).length < (l.filter Q).length := by
  induction l with
  | nil => simp at ha
  | cons x l ih =>
    have hle : ∀ l : List A, (l.filter P).length ≤ (l.filter Q).length := by
      intro l
      induction l with
      | nil => simp
      | cons y l ih2 =>
        simp only [List.filter_cons]
        by_cases hy : P y = true
        · simp [hy, h y hy, ih2]
        · by_cases hq : Q y = true <;> simp [hy, hq] <;> omega
    simp only [List.filter_cons]
    rcases List.mem_cons.1 ha with rfl | ha
    · simp [hq, hp]; have := hle l; omega
    · have := ih ha
      by_cases hy : P x = true
      · simp [hy, h x hy]; omega
      · by_cases hq : Q x = true <;> simp [hy, hq] <;> omega

theorem Inv.below_base {rank} {w : World} (i : Inv rank w) {p q : Ptr} (hp : w.kind p = some .cls)
    {x : TypeId × Caster} (hx : x ∈ (w.cls p).bases) (hq : w.find x.1 = some q) :
    below rank w q < below rank w p := by
  obtain ⟨h1, h2⟩ := i.find_cls hq
  have hr := i.ranked p hp x hx
  rw [← h2] at hr
  apply filter_length_lt _ _ _ _ q
  · have := i.kind_lt _ _ h1; simp; omega
  · simpa using hr
  · simp
  · intro a ha; simp at ha ⊢; omega

theorem anyBase_spec (w : World) (f : Ptr → Res Bool) (P : Ptr → Prop) (l : List (TypeId × Caster))
    (h : ∀ x ∈ l, ∃ q r, w.find x.1 = some q ∧ f q = .val r ∧ (r = true ↔ P q)) :
    ∃ r, anyBase w f l = .val r ∧ (r = true ↔ ∃ x ∈ l, ∃ q, w.find x.1 = some q ∧ P q) := by
  induction l with
  | nil => exact ⟨false, rfl, by simp⟩
  | cons x l ih =>
    obtain ⟨q, r, h1, h2, h3⟩ := h x (by simp)
    obtain ⟨r', e, h4⟩ := ih fun y hy => h y (by simp [hy])
    unfold anyBase
    rw [h1]; simp only [h2]
    cases r with
    | true =>
      exact ⟨true, rfl, by simp only [true_iff]; exact ⟨x, by simp, q, h1, h3.1 rfl⟩⟩
    | false =>
      refine ⟨r', e, ?_⟩
      rw [h4]
      constructor
      · rintro ⟨y, hy, z⟩; exact ⟨y, by simp [hy], z⟩
      · rintro ⟨y, hy, q', hq', hP⟩
        rcases List.mem_cons.1 hy with rfl | hy
        · rw [h1] at hq'; cases hq'; exact absurd (h3.2 hP) (by simp)
        · exact ⟨y, hy, q', hq', hP⟩

theorem Inv.inheritedFromF_spec {rank} {w : World} (i : Inv rank w) (b : Ptr) (fuel : Nat) :
    ∀ p, w.kind p = some .cls → below rank w p < fuel →
      ∃ r, w.inheritedFromF fuel p (some b) = .val r ∧ (r = true ↔ Reaches w p b) := by
  induction fuel with
  | zero => intro p _ h; omega
  | succ n ih =>
    intro p hp hlt
    unfold inheritedFromF
    by_cases e : b = p
    · subst e; exact ⟨true, by simp, by simp [Reaches.refl]⟩
    · simp only [if_neg e]
      obtain ⟨r, h1, h2⟩ := anyBase_spec w (fun q => inheritedFromF w n q (some b))
        (fun q => Reaches w q b) (w.cls p).bases (by
          intro x hx
          obtain ⟨q, h1, h2, h3⟩ := i.find_base hp hx
          have := i.below_base hp hx h1
          obtain ⟨r, h4, h5⟩ := ih q h2 (by omega)
          exact ⟨q, r, h1, h4, h5⟩)
      refine ⟨r, h1, ?_⟩
      rw [h2]
      constructor
      · rintro ⟨x, hx, q, hq, hr⟩
        exact .step ((declaredBase_iff i p q).2 ⟨x, hx, hq⟩) hr
      · intro hr
        cases hr with
        | refl => exact absurd rfl e
        | step hd hr =>
          obtain ⟨x, hx, hq⟩ := (declaredBase_iff i _ _).1 hd
          exact ⟨x, hx, _, hq, hr⟩

theorem Inv.inheritedFrom_spec {rank} {w : World} (i : Inv rank w) (p b : Ptr)
    (hp : w.kind p = some .cls) :
    ∃ r, w.inheritedFrom p (some b) = .val r ∧ (r = true ↔ Reaches w p b) :=
  i.inheritedFromF_spec b w.depth p hp (below_lt_depth rank w p)

theorem castBase_spec (w : World) (b : Ptr) (inh : Ptr → Res Bool) (cast : Ptr → Addr → Res Addr)
    (a : Addr) (l : List (TypeId × Caster))
    (h : ∀ x ∈ l, ∃ q r, w.find x.1 = some q ∧ inh q = .val r ∧ (r = true ↔ Reaches w q b))
    (hc : ∀ x ∈ l, ∀ q, w.find x.1 = some q → Reaches w q b → ∀ a,
      ∃ fs, LeftPath w q b fs ∧ cast q a = .val (applyCasts fs a)) :
    (castBase w inh cast a l = .val none ∧ ∀ x ∈ l, ∀ q, w.find x.1 = some q → ¬ Reaches w q b) ∨
    (∃ pre t f post q fs, l = pre ++ (t, f) :: post ∧ w.find t = some q ∧
      (∀ x ∈ pre, ∀ q', w.find x.1 = some q' → ¬ Reaches w q' b) ∧ Reaches w q b ∧
      LeftPath w q b fs ∧ castBase w inh cast a l = .val (some (applyCasts (f :: fs) a))) := by
  induction l with
  | nil => left; exact ⟨rfl, by simp⟩
  | cons x l ih =>
    obtain ⟨q, r, h1, h2, h3⟩ := h x (by simp)
    unfold castBase
    rw [h1]; simp only [h2]
    cases r with
    | true =>
      right
      have hR := h3.1 rfl
      obtain ⟨fs, h4, h5⟩ := hc x (by simp) q h1 hR (x.2 a)
      refine ⟨[], x.1, x.2, l, q, fs, rfl, h1, by simp, hR, h4, ?_⟩
      simp [h5, applyCasts]
    | false =>
      have hR : ¬ Reaches w q b := fun hR => by simpa using h3.2 hR
      rcases ih (fun y hy => h y (by simp [hy])) (fun y hy => hc y (by simp [hy])) with
        ⟨e, h4⟩ | ⟨pre, t, f, post, q', fs, h4, h5, h6, h7, h8, h9⟩
      · left
        refine ⟨e, ?_⟩
        intro y hy q' hq'
        rcases List.mem_cons.1 hy with rfl | hy
        · rw [h1] at hq'; cases hq'; exact hR
        · exact h4 y hy q' hq'
      · right
        refine ⟨x :: pre, t, f, post, q', fs, by simp [h4], h5, ?_, h7, h8, h9⟩
        intro y hy q'' hq''
        rcases List.mem_cons.1 hy with rfl | hy
        · rw [h1] at hq''; cases hq''; exact hR
        · exact h6 y hy q'' hq''

theorem Inv.castF_spec {rank} {w : World} (i : Inv rank w) (b : Ptr) (fuel : Nat) :
    ∀ p a, w.kind p = some .cls → below rank w p < fuel →
      (Reaches w p b → ∃ fs, LeftPath w p b fs ∧ w.castF fuel p (some b) a = .val (applyCasts fs a)) ∧
      (¬ Reaches w p b → w.castF fuel p (some b) a = .val 0) := by
  induction fuel with
  | zero => intro p a _ h; omega
  | succ n ih =>
    intro p a hp hlt
    unfold castF
    by_cases e : b = p
    · subst e
      exact ⟨fun _ => ⟨[], .refl _, by simp [applyCasts]⟩, fun h => absurd (Reaches.refl _) h⟩
    · simp only [if_neg e]
      have hb : ∀ x ∈ (w.cls p).bases, ∃ q r, w.find x.1 = some q ∧
          inheritedFromF w n q (some b) = .val r ∧ (r = true ↔ Reaches w q b) := by
        intro x hx
        obtain ⟨q, h1, h2, h3⟩ := i.find_base hp hx
        have := i.below_base hp hx h1
        obtain ⟨r, h4, h5⟩ := i.inheritedFromF_spec b n q h2 (by omega)
        exact ⟨q, r, h1, h4, h5⟩
      have hc : ∀ x ∈ (w.cls p).bases, ∀ q, w.find x.1 = some q → Reaches w q b → ∀ a,
          ∃ fs, LeftPath w q b fs ∧ castF w n q (some b) a = .val (applyCasts fs a) := by
        intro x hx q hq hr a
        have := i.below_base hp hx hq
        exact (ih q a (i.find_cls hq).1 (by omega)).1 hr
      have hiff : Reaches w p b ↔ ∃ x ∈ (w.cls p).bases, ∃ q, w.find x.1 = some q ∧ Reaches w q b := by
        constructor
        · intro hr
          cases hr with
          | refl => exact absurd rfl e
          | step hd hr =>
            obtain ⟨x, hx, hq⟩ := (declaredBase_iff i _ _).1 hd
            exact ⟨x, hx, _, hq, hr⟩
        · rintro ⟨x, hx, q, hq, hr⟩
          exact .step ((declaredBase_iff i p q).2 ⟨x, hx, hq⟩) hr
      rcases castBase_spec w b (fun q => inheritedFromF w n q (some b))
          (fun q a => castF w n q (some b) a) a _ hb hc with
        ⟨h1, h2⟩ | ⟨pre, t, f, post, q, fs, h1, h2, h3, h4, h5, h6⟩
      · rw [h1]
        refine ⟨fun hr => ?_, fun _ => rfl⟩
        obtain ⟨x, hx, q, hq, hr⟩ := hiff.1 hr
        exact absurd hr (h2 x hx q hq)
      · rw [h6]
        refine ⟨fun _ => ⟨f :: fs, .step (Ne.symm e) h1 h2 h3 h5, rfl⟩, fun hn => ?_⟩
        exact absurd (hiff.2 ⟨(t, f), by simp [h1], q, h2, h4⟩) hn

theorem LeftPath.reaches {rank} {w : World} (i : Inv rank w) {d b : Ptr} {fs : List Caster}
    (h : LeftPath w d b fs) : Reaches w d b := by
  induction h with
  | refl => exact .refl _
  | step _ h1 h2 _ _ ih =>
    exact .step ((declaredBase_iff i _ _).2 ⟨_, by rw [h1]; exact List.mem_append_right _ (List.mem_cons_self), h2⟩) ih

theorem LeftPath.path {w : World} {d b : Ptr} {fs : List Caster} (h : LeftPath w d b fs) :
    Path w d b fs := by
  induction h with
  | refl => exact .refl _
  | step _ h1 h2 _ _ ih => exact .step (by rw [h1]; simp) h2 ih

theorem Path.reaches {rank} {w : World} (i : Inv rank w) {d b : Ptr} {fs : List Caster}
    (h : Path w d b fs) : Reaches w d b := by
  induction h with
  | refl => exact .refl _
  | step h1 h2 _ ih => exact .step ((declaredBase_iff i _ _).2 ⟨_, h1, h2⟩) ih

theorem Path.trans {w : World} {d m b : Ptr} {fs gs : List Caster} (h : Path w d m fs)
    (h' : Path w m b gs) : Path w d b (fs ++ gs) := by
  induction h with
  | refl => exact h'
  | step h1 h2 _ ih => exact .step h1 h2 (ih h')

theorem Reaches.path {rank} {w : World} (i : Inv rank w) {d b : Ptr} (h : Reaches w d b) :
    ∃ fs, Path w d b fs := by
  induction h with
  | refl => exact ⟨[], .refl _⟩
  | step hd _ ih =>
    obtain ⟨fs, h⟩ := ih
    obtain ⟨x, hx, hq⟩ := (declaredBase_iff i _ _).1 hd
    exact ⟨x.2 :: fs, .step (t := x.1) hx hq h⟩

theorem Reaches.kind {rank} {w : World} (i : Inv rank w) {d b : Ptr} (h : Reaches w d b)
    (hd : w.kind d = some .cls) : w.kind b = some .cls := by
  induction h with
  | refl => exact hd
  | step h1 _ ih =>
    obtain ⟨x, hx, hq⟩ := (declaredBase_iff i _ _).1 h1
    exact ih (i.find_cls hq).1

theorem Reaches.trans {w : World} {a b c : Ptr} (h : Reaches w a b) (h' : Reaches w b c) :
    Reaches w a c := by
  induction h with
  | refl => exact h'
  | step h1 _ ih => exact .step h1 (ih h')

/-- two members of a leftmost choice at the same split coincide -/
theorem split_unique {A : Type} (P : A → Prop) {l pre pre' post post' : List A} {x y : A}
    (h : l = pre ++ x :: post) (h' : l = pre' ++ y :: post')
    (hx : P x) (hy : P y) (hp : ∀ z ∈ pre, ¬ P z) (hp' : ∀ z ∈ pre', ¬ P z) : x = y ∧ pre = pre' := by
  induction pre generalizing l pre' with
  | nil =>
    cases pre' with
    | nil => rw [h] at h'; simp at h'; exact ⟨h'.1, rfl⟩
    | cons z pre' => rw [h] at h'; simp at h'; exact absurd (h'.1 ▸ hx) (hp' z (by simp))
  | cons z pre ih =>
    cases pre' with
    | nil => rw [h] at h'; simp at h'; exact absurd (h'.1 ▸ hy) (hp z (by simp))
    | cons z' pre' =>
      rw [h] at h'; simp at h'
      obtain ⟨e1, e2⟩ := ih rfl h'.2 (fun a ha => hp a (by simp [ha])) (fun a ha => hp' a (by simp [ha]))
      exact ⟨e1, by rw [h'.1, e2]⟩

theorem LeftPath.unique {rank} {w : World} (i : Inv rank w) {d b : Ptr} {fs gs : List Caster}
    (h : LeftPath w d b fs) (h' : LeftPath w d b gs) : fs = gs := by
  induction h generalizing gs with
  | refl => cases h' with
    | refl => rfl
    | step hn => exact absurd rfl hn
  | @step d m b t f fs pre post hn h1 h2 h3 h4 ih =>
    cases h' with
    | refl => exact absurd rfl hn
    | @step _ m' _ t' f' fs' pre' post' hn' g1 g2 g3 g4 =>
      have := split_unique (P := fun x : TypeId × Caster => ∃ q, w.find x.1 = some q ∧ Reaches w q b)
        h1 g1 ⟨m, h2, LeftPath.reaches i h4⟩ ⟨m', g2, LeftPath.reaches i g4⟩
        (fun z hz ⟨q, hq, hr⟩ => h3 z hz q hq hr) (fun z hz ⟨q, hq, hr⟩ => g3 z hz q hq hr)
      obtain ⟨e, _⟩ := this
      cases e
      rw [h2] at g2; cases g2
      rw [ih g4]

/-! ### look-up -/

theorem firstBase_spec (w : World) (f : Ptr → Res (Option Ptr)) (Own : Ptr → Ptr → Prop)
    (l : List (TypeId × Caster))
    (h : ∀ x ∈ l, ∃ q r, w.find x.1 = some q ∧ f q = .val r ∧
      (∀ m, r = some m → Finds w Own q m) ∧ (r = none → ∀ a m, Reaches w q a → ¬ Own a m)) :
    (firstBase w f l = .val none ∧ ∀ x ∈ l, ∀ q, w.find x.1 = some q → ∀ a m, Reaches w q a → ¬ Own a m) ∨
    (∃ pre t c post q m, l = pre ++ (t, c) :: post ∧ w.find t = some q ∧
      (∀ x ∈ pre, ∀ q', w.find x.1 = some q' → ∀ a m', Reaches w q' a → ¬ Own a m') ∧
      Finds w Own q m ∧ firstBase w f l = .val (some m)) := by
  induction l with
  | nil => left; exact ⟨rfl, by simp⟩
  | cons x l ih =>
    obtain ⟨q, r, h1, h2, h3, h4⟩ := h x (by simp)
    unfold firstBase
    rw [h1]; simp only [h2]
    cases r with
    | some m => right; exact ⟨[], x.1, x.2, l, q, m, rfl, h1, by simp, h3 m rfl, rfl⟩
    | none =>
      have hN := h4 rfl
      rcases ih (fun y hy => h y (by simp [hy])) with ⟨e, h5⟩ | ⟨pre, t, c, post, q', m, h5, h6, h7, h8, h9⟩
      · left
        refine ⟨e, ?_⟩
        intro y hy q' hq'
        rcases List.mem_cons.1 hy with rfl | hy
        · rw [h1] at hq'; cases hq'; exact hN
        · exact h5 y hy q' hq'
      · right
        refine ⟨x :: pre, t, c, post, q', m, by simp [h5], h6, ?_, h8, h9⟩
        intro y hy q'' hq''
        rcases List.mem_cons.1 hy with rfl | hy
        · rw [h1] at hq''; cases hq''; exact hN
        · exact h7 y hy q'' hq''

theorem ownMethod_spec (w : World) (c : Ptr) (n : Str) :
    ∃ r, w.ownMethod c n = .val r ∧ (∀ m, r = some m ↔ OwnMethod w n c m) := by
  obtain ⟨r, e, h1, h2⟩ := findMethod_spec n (w.cont c .method).items
  unfold ownMethod
  rw [e]
  cases r with
  | none =>
    refine ⟨none, rfl, ?_⟩
    intro m
    simp only [false_iff, reduceCtorEq]
    rintro ⟨it, _, pre, post, h3, h4, _⟩
    have := h2.1 rfl it (by rw [h3]; simp)
    exact this h4
  | some it =>
    refine ⟨some it.ptr, rfl, ?_⟩
    intro m
    obtain ⟨pre, post, h3, h4, h5⟩ := (h1 it).1 rfl
    constructor
    · intro e; cases e; exact ⟨it, rfl, pre, post, h3, h4, h5⟩
    · rintro ⟨it', rfl, pre', post', h3', h4', h5'⟩
      have := (h1 it').2 ⟨pre', post', h3', h4', h5'⟩
      cases this; rfl

theorem Inv.classMethodF_spec {rank} {w : World} (i : Inv rank w) (n : Str) (hn : n ≠ []) (fuel : Nat) :
    ∀ p, w.kind p = some .cls → below rank w p < fuel →
      ∃ r, w.classMethodF fuel p n = .val r ∧ (∀ m, r = some m → Finds w (OwnMethod w n) p m) ∧
        (r = none → ∀ a m, Reaches w p a → ¬ OwnMethod w n a m) := by
  induction fuel with
  | zero => intro p _ h; omega
  | succ k ih =>
    intro p hp hlt
    unfold classMethodF
    rw [if_neg hn]
    obtain ⟨r, h1, h2⟩ := ownMethod_spec w p n
    rw [h1]
    cases r with
    | some m => exact ⟨some m, rfl, fun m' e => by cases e; exact .own ((h2 m).1 rfl), by simp⟩
    | none =>
      have hno : ∀ m, ¬ OwnMethod w n p m := fun m h => by simpa using (h2 m).2 h
      rcases firstBase_spec w (fun q => classMethodF w k q n) (OwnMethod w n) (w.cls p).bases (by
          intro x hx
          obtain ⟨q, h3, h4, _⟩ := i.find_base hp hx
          have := i.below_base hp hx h3
          obtain ⟨r, h5, h6, h7⟩ := ih q h4 (by omega)
          exact ⟨q, r, h3, h5, h6, h7⟩) with ⟨e, h3⟩ | ⟨pre, t, c, post, q, m, h3, h4, h5, h6, e⟩
      · refine ⟨none, e, by simp, fun _ a m hr => ?_⟩
        cases hr with
        | refl => exact hno m
        | step hd hr =>
          obtain ⟨x, hx, hq⟩ := (declaredBase_iff i _ _).1 hd
          exact h3 x hx _ hq a m hr
      · exact ⟨some m, e, fun m' e' => by cases e'; exact .base hno h3 h4 h5 h6, by simp⟩

theorem Inv.ownProperty_spec {rank} {w : World} (i : Inv rank w) (c : Ptr) (n : Str) (hn : n ≠ []) (m : Ptr) :
    w.ownProperty c n = some m ↔ OwnProperty w n c m := by
  unfold ownProperty OwnProperty
  constructor
  · intro h
    obtain ⟨it, h1, h2⟩ := Option.map_eq_some_iff.1 h
    obtain ⟨_, h3, h4⟩ := ((i.wf c .property).get_iff n it).1 h1
    exact ⟨it, h3, h4, h2⟩
  · rintro ⟨it, h1, h2, h3⟩
    rw [((i.wf c .property).get_iff n it).2 ⟨hn, h1, h2⟩]
    simp [h3]

theorem Inv.classPropertyF_spec {rank} {w : World} (i : Inv rank w) (n : Str) (hn : n ≠ []) (fuel : Nat) :
    ∀ p, w.kind p = some .cls → below rank w p < fuel →
      ∃ r, w.classPropertyF fuel p n = .val r ∧ (∀ m, r = some m → Finds w (OwnProperty w n) p m) ∧
        (r = none → ∀ a m, Reaches w p a → ¬ OwnProperty w n a m) := by
  induction fuel with
  | zero => intro p _ h; omega
  | succ k ih =>
    intro p hp hlt
    unfold classPropertyF
    rw [if_neg hn]
    have h2 := i.ownProperty_spec p n hn
    cases hr : w.ownProperty p n with
    | some m =>
      exact ⟨some m, rfl, fun m' e => by cases e; exact .own ((h2 m).1 hr), by simp⟩
    | none =>
      have hno : ∀ m, ¬ OwnProperty w n p m := fun m h => by
        have := (h2 m).2 h; rw [hr] at this; cases this
      rcases firstBase_spec w (fun q => classPropertyF w k q n) (OwnProperty w n) (w.cls p).bases (by
          intro x hx
          obtain ⟨q, h3, h4, _⟩ := i.find_base hp hx
          have := i.below_base hp hx h3
          obtain ⟨r, h5, h6, h7⟩ := ih q h4 (by omega)
          exact ⟨q, r, h3, h5, h6, h7⟩) with ⟨e, h3⟩ | ⟨pre, t, c, post, q, m, h3, h4, h5, h6, e⟩
      · refine ⟨none, e, by simp, fun _ a m hr => ?_⟩
        cases hr with
        | refl => exact hno m
        | step hd hr =>
          obtain ⟨x, hx, hq⟩ := (declaredBase_iff i _ _).1 hd
          exact h3 x hx _ hq a m hr
      · exact ⟨some m, e, fun m' e' => by cases e'; exact .base hno h3 h4 h5 h6, by simp⟩

theorem Finds.exists_own {rank} {w : World} (i : Inv rank w) {Own : Ptr → Ptr → Prop} {c m : Ptr}
    (h : Finds w Own c m) : ∃ a, Reaches w c a ∧ Own a m := by
  induction h with
  | own h => exact ⟨_, .refl _, h⟩
  | base _ h1 h2 _ _ ih =>
    obtain ⟨a, h3, h4⟩ := ih
    exact ⟨a, .step ((declaredBase_iff i _ _).2 ⟨_, by rw [h1]; exact List.mem_append_right _ (List.mem_cons_self), h2⟩) h3, h4⟩

end World
end Rtti
