import Verif.Model.Lazy
/-
With no callback pending the functions of `Model/Lazy.lean` are those of `Model/World.lean`.
-/
set_option autoImplicit false
namespace Rtti
open LM

/-- nothing is pending -/
def Quiet (s : LW) : Prop := ∀ p, s.pending p = none

theorem Quiet.iter {s : LW} (h : Quiet s) (i : List Ptr) : Quiet { s with iter := i } := h
theorem Quiet.world {s : LW} (h : Quiet s) (w : World) : Quiet { s with w := w } := h

namespace Lazy
variable {f : Nat}

theorem check_quiet {s : LW} (h : Quiet s) (p : Ptr) : check (f + 1) p s = (s, .val ()) := by
  simp [check, h p]

/-- continue with a result -/
def resBind {A B : Type} (r : Res A) (k : A → Res B) : Res B :=
  match r with
  | .val a => k a
  | .throw e => .throw e
  | .ub => .ub
  | .diverge => .diverge

/-- answers without changing the state -/
def Reads {A : Type} (m : LM A) (g : World → Res A) : Prop := ∀ s, Quiet s → m s = (s, g s.w)

theorem Reads.bind {A B : Type} {m : LM A} {g : World → Res A} {k : A → LM B} {h : A → World → Res B}
    (hm : Reads m g) (hk : ∀ a, Reads (k a) (h a)) : Reads (m.bind k) (fun w => resBind (g w) fun a => h a w) := by
  intro s q
  simp only [LM.bind, hm s q]
  cases g s.w with
  | val a => exact hk a s q
  | throw e => rfl
  | ub => rfl
  | diverge => rfl

theorem Reads.check {B : Type} {p : Ptr} {k : LM B} {h : World → Res B} (hk : Reads k h) :
    Reads ((Lazy.check (f + 1) p).bind fun _ => k) h := by
  intro s q
  simp only [LM.bind, check_quiet q]
  exact hk s q

theorem Reads.read {A : Type} (g : World → Res A) : Reads (LM.read g) g := fun _ _ => rfl
theorem Reads.pure {A : Type} (a : A) : Reads (LM.pure a) fun _ => .val a := fun _ _ => rfl

theorem Reads.withBases {A : Type} {this : Ptr} {k : List (TypeId × Caster) → LM A}
    {h : List (TypeId × Caster) → World → Res A} (hk : ∀ l, Reads (k l) (h l)) :
    Reads (Lazy.withBases this k) (fun w => h (w.cls this).bases w) := by
  intro s q
  have := hk (s.w.cls this).bases { s with iter := this :: s.iter } q
  simp only [Lazy.withBases, this]

theorem Reads.congr {A : Type} {m : LM A} {g g' : World → Res A} (h : Reads m g) (e : ∀ w, g w = g' w) : Reads m g' :=
  fun s q => by rw [h s q, e]

theorem reads_firstBase {k : Ptr → LM (Option Ptr)} {g : Ptr → World → Res (Option Ptr)} (hk : ∀ p, Reads (k p) (g p))
    (l : List (TypeId × Caster)) : Reads (Lazy.firstBase k l) (fun w => w.firstBase (fun p => g p w) l) := by
  induction l with
  | nil => exact Reads.pure none
  | cons b l ih =>
    unfold Lazy.firstBase
    refine (Reads.bind (Reads.read _) fun d => Reads.bind (hk d) fun r => (?_ : Reads _
      (fun w => match r with | some p => .val (some p) | none => w.firstBase (fun p => g p w) l))).congr fun w => ?_
    · cases r with
      | none => exact ih
      | some p => exact Reads.pure _
    · simp only [World.firstBase]
      cases w.find b.1 with
      | none => rfl
      | some d =>
        simp only [resBind]
        cases g d w with
        | val r => cases r <;> rfl
        | throw e => rfl
        | ub => rfl
        | diverge => rfl

theorem reads_classMethod (fuel : Nat) (c : Ptr) (n : Str) :
    Reads (Lazy.classMethod (check (f + 1)) fuel c n) (fun w => w.classMethodF fuel c n) := by
  induction fuel generalizing c with
  | zero => exact fun _ _ => rfl
  | succ fuel ih =>
    unfold Lazy.classMethod World.classMethodF
    by_cases hn : n = []
    · simp only [if_pos hn]; exact Reads.pure none
    · simp only [if_neg hn]
      refine Reads.check ?_
      refine (Reads.bind (Reads.read _) fun r => (?_ : Reads _
        (fun w => match r with
          | some p => .val (some p)
          | none => w.firstBase (fun p => w.classMethodF fuel p n) (w.cls c).bases))).congr fun w => ?_
      · cases r with
        | none => exact Reads.withBases fun l => reads_firstBase (fun p => ih p) l
        | some p => exact Reads.pure _
      · cases w.ownMethod c n with
        | val r => cases r <;> rfl
        | throw e => rfl
        | ub => rfl
        | diverge => rfl

theorem reads_classProperty (fuel : Nat) (c : Ptr) (n : Str) :
    Reads (Lazy.classProperty (check (f + 1)) fuel c n) (fun w => w.classPropertyF fuel c n) := by
  induction fuel generalizing c with
  | zero => exact fun _ _ => rfl
  | succ fuel ih =>
    unfold Lazy.classProperty World.classPropertyF
    by_cases hn : n = []
    · simp only [if_pos hn]; exact Reads.pure none
    · simp only [if_neg hn]
      refine Reads.check ?_
      refine (Reads.bind (Reads.read _) fun r => (?_ : Reads _
        (fun w => match r with
          | some p => .val (some p)
          | none => w.firstBase (fun p => w.classPropertyF fuel p n) (w.cls c).bases))).congr fun w => ?_
      · cases r with
        | none => exact Reads.withBases fun l => reads_firstBase (fun p => ih p) l
        | some p => exact Reads.pure _
      · cases w.ownProperty c n <;> rfl

theorem reads_anyBase {k : Ptr → LM Bool} {g : Ptr → World → Res Bool} (hk : ∀ p, Reads (k p) (g p))
    (l : List (TypeId × Caster)) : Reads (Lazy.anyBase k l) (fun w => w.anyBase (fun p => g p w) l) := by
  induction l with
  | nil => exact Reads.pure false
  | cons b l ih =>
    unfold Lazy.anyBase
    refine (Reads.bind (Reads.read _) fun d => Reads.bind (hk d) fun r => (?_ : Reads _
      (fun w => match r with | true => .val true | false => w.anyBase (fun p => g p w) l))).congr fun w => ?_
    · cases r with
      | false => simp only [Bool.false_eq_true, if_false]; exact ih
      | true => simp only [if_true]; exact Reads.pure _
    · simp only [World.anyBase]
      cases w.find b.1 with
      | none => rfl
      | some d =>
        simp only [resBind]
        cases g d w with
        | val r => cases r <;> rfl
        | throw e => rfl
        | ub => rfl
        | diverge => rfl

theorem reads_inheritedFrom (fuel : Nat) (c : Ptr) (b : Option Ptr) :
    Reads (Lazy.inheritedFrom (check (f + 1)) fuel c b) (fun w => w.inheritedFromF fuel c b) := by
  induction fuel generalizing c with
  | zero => exact fun _ _ => rfl
  | succ fuel ih =>
    unfold Lazy.inheritedFrom World.inheritedFromF
    cases b with
    | none => exact Reads.pure false
    | some b =>
      dsimp only
      by_cases hb : b = c
      · simp only [if_pos hb]; exact Reads.pure true
      · simp only [if_neg hb]
        exact Reads.check (Reads.withBases fun l => reads_anyBase (fun p => ih p) l)

theorem reads_castBase {inh : Ptr → LM Bool} {gi : Ptr → World → Res Bool} (hi : ∀ p, Reads (inh p) (gi p))
    {cast : Ptr → Addr → LM Addr} {gc : Ptr → Addr → World → Res Addr} (hc : ∀ p a, Reads (cast p a) (gc p a))
    (a : Addr) (l : List (TypeId × Caster)) :
    Reads (Lazy.castBase inh cast a l) (fun w => w.castBase (fun p => gi p w) (fun p x => gc p x w) a l) := by
  induction l with
  | nil => exact Reads.pure none
  | cons b l ih =>
    unfold Lazy.castBase
    refine (Reads.bind (Reads.read _) fun d => Reads.bind (hi d) fun r => (?_ : Reads _
      (fun w => match r with
        | true => resBind (gc d (b.2 a) w) fun x => .val (some x)
        | false => w.castBase (fun p => gi p w) (fun p x => gc p x w) a l))).congr fun w => ?_
    · cases r with
      | false => simp only [Bool.false_eq_true, if_false]; exact ih
      | true => simp only [if_true]; exact Reads.bind (hc d _) fun x => Reads.pure (some x)
    · simp only [World.castBase]
      cases w.find b.1 with
      | none => rfl
      | some d =>
        simp only [resBind]
        cases gi d w with
        | val r =>
          cases r with
          | false => rfl
          | true => dsimp only; cases gc d (b.2 a) w <;> rfl
        | throw e => rfl
        | ub => rfl
        | diverge => rfl

theorem reads_cast (fuel : Nat) (c : Ptr) (b : Option Ptr) (a : Addr) :
    Reads (Lazy.cast (check (f + 1)) fuel c b a) (fun w => w.castF fuel c b a) := by
  induction fuel generalizing c a with
  | zero => exact fun _ _ => rfl
  | succ fuel ih =>
    unfold Lazy.cast World.castF
    cases b with
    | none => exact Reads.pure 0
    | some b =>
      dsimp only
      by_cases hb : b = c
      · simp only [if_pos hb]; exact Reads.pure a
      · simp only [if_neg hb]
        refine Reads.check ((Reads.bind (Reads.withBases fun l =>
          reads_castBase (fun p => reads_inheritedFrom fuel p (some b)) (fun p x => ih p x) a l)
          fun r => Reads.pure (r.getD 0)).congr fun w => ?_)
        cases w.castBase (fun p => w.inheritedFromF fuel p (some b)) (fun p x => w.castF fuel p (some b) x) a (w.cls c).bases with
        | val r => cases r <;> rfl
        | throw e => rfl
        | ub => rfl
        | diverge => rfl

/-! ### enough fuel -/

theorem firstBase_mono {w : World} {g g' : Ptr → Res (Option Ptr)} (h : ∀ p, g p ≠ .diverge → g' p = g p)
    (l : List (TypeId × Caster)) (hd : w.firstBase g l ≠ .diverge) : w.firstBase g' l = w.firstBase g l := by
  induction l with
  | nil => rfl
  | cons b l ih =>
    simp only [World.firstBase] at hd ⊢
    cases hf : w.find b.1 with
    | none => rfl
    | some d =>
      simp only [hf] at hd ⊢
      cases hg : g d with
      | val r =>
        rw [h d (by simp [hg]), hg]
        simp only [hg] at hd
        cases r with
        | none => exact ih hd
        | some p => rfl
      | throw e => rw [h d (by simp [hg]), hg]
      | ub => rw [h d (by simp [hg]), hg]
      | diverge => simp [hg] at hd

theorem classMethodF_mono {w : World} {n : Str} (m k : Nat) (hk : m ≤ k) (c : Ptr) (hd : w.classMethodF m c n ≠ .diverge) :
    w.classMethodF k c n = w.classMethodF m c n := by
  induction m generalizing k c with
  | zero => exact absurd rfl hd
  | succ m ih =>
    obtain ⟨k, rfl⟩ : ∃ j, k = j + 1 := ⟨k - 1, by omega⟩
    simp only [World.classMethodF] at hd ⊢
    by_cases hn : n = []
    · simp only [if_pos hn]
    · simp only [if_neg hn] at hd ⊢
      cases ho : w.ownMethod c n with
      | val r =>
        cases r with
        | some p => rfl
        | none =>
          simp only [ho] at hd
          exact firstBase_mono (fun p hp => ih k (by omega) p hp) _ hd
      | throw e => rfl
      | ub => rfl
      | diverge => rfl

theorem classPropertyF_mono {w : World} {n : Str} (m k : Nat) (hk : m ≤ k) (c : Ptr)
    (hd : w.classPropertyF m c n ≠ .diverge) : w.classPropertyF k c n = w.classPropertyF m c n := by
  induction m generalizing k c with
  | zero => exact absurd rfl hd
  | succ m ih =>
    obtain ⟨k, rfl⟩ : ∃ j, k = j + 1 := ⟨k - 1, by omega⟩
    simp only [World.classPropertyF] at hd ⊢
    by_cases hn : n = []
    · simp only [if_pos hn]
    · simp only [if_neg hn] at hd ⊢
      cases ho : w.ownProperty c n with
      | some p => rfl
      | none =>
        simp only [ho] at hd
        exact firstBase_mono (fun p hp => ih k (by omega) p hp) _ hd

theorem anyBase_mono {w : World} {g g' : Ptr → Res Bool} (h : ∀ p, g p ≠ .diverge → g' p = g p)
    (l : List (TypeId × Caster)) (hd : w.anyBase g l ≠ .diverge) : w.anyBase g' l = w.anyBase g l := by
  induction l with
  | nil => rfl
  | cons b l ih =>
    simp only [World.anyBase] at hd ⊢
    cases hf : w.find b.1 with
    | none => rfl
    | some d =>
      simp only [hf] at hd ⊢
      cases hg : g d with
      | val r =>
        rw [h d (by simp [hg]), hg]
        simp only [hg] at hd
        cases r with
        | false => exact ih hd
        | true => rfl
      | throw e => rw [h d (by simp [hg]), hg]
      | ub => rw [h d (by simp [hg]), hg]
      | diverge => simp [hg] at hd

theorem inheritedFromF_mono {w : World} {b : Option Ptr} (m k : Nat) (hk : m ≤ k) (c : Ptr)
    (hd : w.inheritedFromF m c b ≠ .diverge) : w.inheritedFromF k c b = w.inheritedFromF m c b := by
  induction m generalizing k c with
  | zero => exact absurd rfl hd
  | succ m ih =>
    obtain ⟨k, rfl⟩ : ∃ j, k = j + 1 := ⟨k - 1, by omega⟩
    simp only [World.inheritedFromF] at hd ⊢
    cases b with
    | none => rfl
    | some b =>
      dsimp only at hd ⊢
      by_cases hb : b = c
      · simp only [if_pos hb]
      · simp only [if_neg hb] at hd ⊢
        exact anyBase_mono (fun p hp => ih k (by omega) p hp) _ hd

theorem castBase_mono {w : World} {i i' : Ptr → Res Bool} (hi : ∀ p, i p ≠ .diverge → i' p = i p)
    {g g' : Ptr → Addr → Res Addr} (h : ∀ p x, g p x ≠ .diverge → g' p x = g p x) (a : Addr)
    (l : List (TypeId × Caster)) (hd : w.castBase i g a l ≠ .diverge) : w.castBase i' g' a l = w.castBase i g a l := by
  induction l with
  | nil => rfl
  | cons b l ih =>
    simp only [World.castBase] at hd ⊢
    cases hf : w.find b.1 with
    | none => rfl
    | some d =>
      simp only [hf] at hd ⊢
      cases hg : i d with
      | val r =>
        rw [hi d (by simp [hg]), hg]
        simp only [hg] at hd
        cases r with
        | false => exact ih hd
        | true =>
          dsimp only at hd ⊢
          cases hc : g d (b.2 a) with
          | diverge => simp [hc] at hd
          | val x => rw [h d _ (by simp [hc]), hc]
          | throw x => rw [h d _ (by simp [hc]), hc]
          | ub => rw [h d _ (by simp [hc]), hc]
      | throw e => rw [hi d (by simp [hg]), hg]
      | ub => rw [hi d (by simp [hg]), hg]
      | diverge => simp [hg] at hd

theorem castF_mono {w : World} {b : Option Ptr} (m k : Nat) (hk : m ≤ k) (c : Ptr) (a : Addr)
    (hd : w.castF m c b a ≠ .diverge) : w.castF k c b a = w.castF m c b a := by
  induction m generalizing k c a with
  | zero => exact absurd rfl hd
  | succ m ih =>
    obtain ⟨k, rfl⟩ : ∃ j, k = j + 1 := ⟨k - 1, by omega⟩
    simp only [World.castF] at hd ⊢
    cases b with
    | none => rfl
    | some b =>
      dsimp only at hd ⊢
      by_cases hb : b = c
      · simp only [if_pos hb]
      · simp only [if_neg hb] at hd ⊢
        rw [castBase_mono (fun p hp => inheritedFromF_mono m k (by omega) p hp) (fun p x hx => ih k (by omega) p x hx) a _
          (fun h => by simp [h] at hd)]

theorem getMethod_quiet {s : LW} (q : Quiet s) {fuel : Nat} (hf : s.w.depth ≤ fuel) (c : Ptr) (n : Str)
    (hd : s.w.getMethod c n ≠ .diverge) :
    Lazy.getMethod (check (f + 1)) fuel c n s = (s, s.w.getMethod c n) := by
  unfold Lazy.getMethod
  unfold World.getMethod at hd ⊢
  by_cases hn : n = []
  · simp only [if_pos hn]; rfl
  · simp only [if_neg hn] at hd ⊢
    simp only [LM.bind, LM.read]
    cases hk : s.w.kind c with
    | none => rfl
    | some k =>
      simp only [hk] at hd
      cases k with
      | cls =>
        dsimp only at hd ⊢
        rw [reads_classMethod fuel c n s q]
        dsimp only
        rw [classMethodF_mono _ _ hf c hd]
      | nmspace =>
        dsimp only
        exact (Reads.check (Reads.read _)) s q
      | property => rfl
      | method => rfl
      | enum => rfl
      | constructor => rfl

theorem getProperty_quiet {s : LW} (q : Quiet s) {fuel : Nat} (hf : s.w.depth ≤ fuel) (c : Ptr) (n : Str)
    (hd : s.w.getProperty c n ≠ .diverge) :
    Lazy.getProperty (check (f + 1)) fuel c n s = (s, s.w.getProperty c n) := by
  unfold Lazy.getProperty
  unfold World.getProperty at hd ⊢
  simp only [LM.bind, LM.read]
  cases hk : s.w.kind c with
  | none => rfl
  | some k =>
    simp only [hk] at hd
    cases k with
    | cls =>
      dsimp only at hd ⊢
      rw [reads_classProperty fuel c n s q]
      dsimp only
      rw [classPropertyF_mono _ _ hf c hd]
    | nmspace =>
      dsimp only
      exact (Reads.check (Reads.read _)) s q
    | property => rfl
    | method => rfl
    | enum => rfl
    | constructor => rfl

theorem reads_getItem (c : Ptr) (k : Cat) (n : Str) : Reads (Lazy.getItem (check (f + 1)) c k n) (fun w => w.getItem c k n) :=
  Reads.check (Reads.read _)
theorem reads_getConstructor (c : Ptr) (n : Str) :
    Reads (Lazy.getConstructor (check (f + 1)) c n) (fun w => w.getConstructor c n) := Reads.check (Reads.read _)

/-- get-or-create in both -/
theorem getOrCreate_quiet {s : LW} (q : Quiet s) {look : LM (Option Ptr)} {o : Ptr} {k : Cat} {n : Str} {t : TypeId}
    {g : World → Res (Option Ptr)} {fuel : Nat} (hf : s.w.depth + 1 ≤ fuel)
    (hl : ∀ w, w.depth ≤ fuel → g w ≠ .diverge → look { s with w := w } = ({ s with w := w }, g w))
    (hd : (s.w.getOrCreate o k n t g fun w _ => w).2 ≠ .diverge) :
    Lazy.getOrCreate look (tryCreate o k n t) s =
      ({ s with w := (s.w.getOrCreate o k n t g fun w _ => w).1 }, (s.w.getOrCreate o k n t g fun w _ => w).2) := by
  unfold World.getOrCreate at hd ⊢
  have h0 := hl s.w (by omega)
  unfold Lazy.getOrCreate
  simp only [LM.bind]
  cases hg : g s.w with
  | val r =>
    have h0 := h0 (by simp [hg])
    rw [h0, hg]
    cases r with
    | some p => rfl
    | none =>
      simp only [hg] at hd
      simp only [LM.bind, LM.change, tryCreate]
      by_cases hr : ((s.w.alloc k n o t).addItem o k ⟨s.w.next, n⟩).2 = true
      · simp only [hr, if_true]; rfl
      · simp only [hr] at hd ⊢
        simp only [Bool.false_eq_true, if_false] at hd ⊢
        refine hl _ ?_ hd
        simp only [World.depth, World.free, World.addItem, World.alloc] at hf ⊢
        exact hf
  | throw e =>
    rw [h0 (by simp [hg]), hg]
  | ub =>
    rw [h0 (by simp [hg]), hg]
  | diverge => simp [hg] at hd

theorem createClass_quiet {s : LW} (q : Quiet s) {o : Ptr} {n : Str} {t : TypeId} :
    Lazy.getOrCreate (Lazy.getItem (check (f + 1)) o .cls n) (tryCreateClass o n t) s =
      ({ s with w := (s.w.createClass o n t).1 }, (s.w.createClass o n t).2) := by
  have hg := fun s q => reads_getItem (f := f) o .cls n s q
  unfold Lazy.getOrCreate World.createClass
  simp only [LM.bind, hg s q]
  cases hr : s.w.getItem o .cls n with
  | throw e => rfl
  | ub => rfl
  | diverge => rfl
  | val r =>
    cases r with
    | some p => rfl
    | none =>
      simp only [LM.bind, LM.change, tryCreateClass]
      cases hv : s.w.valid t with
      | false => rfl
      | true =>
        simp only [Bool.not_true, Bool.false_eq_true, if_false]
        cases hm : (s.w.metaClass t).isSome with
        | true => rfl
        | false =>
          simp only [Bool.false_eq_true, if_false, World.getOrCreate, hr, tryCreate]
          by_cases hc : ((s.w.alloc .cls n o t).addItem o .cls ⟨s.w.next, n⟩).2 = true
          · simp only [hc, if_true]; rfl
          · simp only [hc]
            simp only [Bool.false_eq_true, if_false]
            exact hg _ q

theorem op_quiet {s : LW} (q : Quiet s) (hi : s.iter = []) {fuel : Nat} (hf : s.w.depth + 1 ≤ fuel) (o : World.Op)
    (hd : (s.w.step o).2 ≠ .diverge) :
    Lazy.op (check (f + 1)) fuel o s = ({ s with w := (s.w.step o).1 }, (s.w.step o).2) := by
  cases o with
  | registerType t => rfl
  | createNamespace o n =>
    exact getOrCreate_quiet q hf (fun w _ _ => reads_getItem o .nmspace n { s with w := w } q) hd
  | createEnum o n =>
    exact getOrCreate_quiet q hf (fun w _ _ => reads_getItem o .enum n { s with w := w } q) hd
  | createClass o n t => exact createClass_quiet q
  | createMethod o sg i =>
    simp only [Lazy.op, World.step, LM.bind, LM.read] at hd ⊢
    by_cases hc : s.w.isContainer o = true
    · simp only [hc, if_true] at hd ⊢
      cases i with
      | false => rfl
      | true =>
        simp only [Bool.not_true, Bool.false_eq_true, if_false, World.createMethod] at hd ⊢
        exact getOrCreate_quiet q hf (fun w hw h => getMethod_quiet (s := { s with w := w }) q hw o sg h) hd
    · simp only [hc]; rfl
  | createProperty o n i =>
    simp only [Lazy.op, World.step, LM.bind, LM.read] at hd ⊢
    by_cases hc : s.w.isContainer o = true
    · simp only [hc, if_true] at hd ⊢
      simp only [World.createProperty] at hd ⊢
      by_cases hn : n = [] ∨ (!i) = true
      · simp only [if_pos hn]; rfl
      · simp only [if_neg hn] at hd ⊢
        exact getOrCreate_quiet q hf (fun w hw h => getProperty_quiet (s := { s with w := w }) q hw o n h) hd
    · simp only [hc]; rfl
  | createConstructor o sg i =>
    simp only [Lazy.op, World.step, LM.bind, LM.read] at hd ⊢
    by_cases hc : s.w.isContainer o = true
    · simp only [hc, if_true] at hd ⊢
      cases i with
      | false => rfl
      | true =>
        simp only [Bool.not_true, Bool.false_eq_true, if_false, World.createConstructor] at hd ⊢
        exact getOrCreate_quiet q hf (fun w _ _ => reads_getConstructor o sg { s with w := w } q) hd
    · simp only [hc]; rfl
  | addBase p t c =>
    simp only [Lazy.op, hi, List.not_mem_nil, if_false]
    simp only [LM.change, hi]

end Lazy
end Rtti
