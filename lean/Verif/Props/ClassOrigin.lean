import Verif.Lemmas.ClassOrigin
import Verif.Model.MetaCastIds
import Verif.Props.ClassFind
import Verif.Props.Circles
import Verif.Examples.Naming
/-
C97: classes found by type are those defined for the type, their bases those declared; `meta_cast` goes along the declarations.
-/
set_option autoImplicit false
namespace Rtti.Props
open Rtti Spec ClassFind

variable {nm : RType → Str}

/-- C97: one of the calls is `_class<T>(name)`, for a name that is not in use there, and gives the class `c` -/
def Defines (nm : RType → Str) (cs : List Call) (T : RType) (c : Ptr) : Prop :=
  ∃ l o n l', cs = l ++ .cls o n T :: l' ∧ ((init.run nm l).use nm T).1.world.getItem o .cls n = .val none ∧
    ((init.run nm l).step nm (.cls o n T)).2 = .val (some c)

/-- C97: one of the calls is `_base<B>()` on the class `c`, with the cast function `f`, and succeeds as the first such call -/
def Declares (nm : RType → Str) (cs : List Call) (c : Ptr) (B : RType) (f : Caster) : Prop :=
  ∃ l l', cs = l ++ .base c B f :: l' ∧ ((init.run nm l).step nm (.base c B f)).2 = .val none ∧
    ∀ k g k', l = k ++ .base c B g :: k' → ((init.run nm k).step nm (.base c B g)).2 ≠ .val none

/-- C97: declarations lead from the type `D` to the type `T`; `fs`: their cast functions -/
inductive Via (nm : RType → Str) (cs : List Call) : RType → RType → List Caster → Prop
  | refl (T : RType) : Via nm cs T T []
  | step {D B T : RType} {d : Ptr} {f : Caster} {fs : List Caster} :
      Defines nm cs D d → Declares nm cs d B f → Via nm cs B T fs → Via nm cs D T (f :: fs)

section
variable (h0 : ∀ T, nm T ≠ []) {cs : List Call}
include h0

theorem Defines.named {T : RType} {c : Ptr} (h : Defines nm cs T c) : ∃ k, (init.run nm cs).reg.names (nm T) = some k ∧
    (init.run nm cs).world.metaClass k = some c := by
  obtain ⟨l, o, n, l', rfl, h1, h2⟩ := h
  have i := (Inv.init nm).run h0 l
  obtain ⟨hm, hv⟩ := new_attached h0 i ⟨h1, h2⟩
  rw [run_append]
  exact ⟨_, named_run h0 l' i (c := .cls o n T) rfl hv, (Keeps.run h0 l' (i.step h0 _)).cls _ _ hm⟩

/-- a class attached to an id was defined for a type with the text registered under the id -/
theorem attached {k : TypeId} {c : Ptr} (h : (init.run nm cs).world.metaClass k = some c) :
    ∃ S, Defines nm cs S c ∧ (init.run nm cs).reg.names (nm S) = some k := by
  rcases found_run cs init h with h | ⟨l, o, n, S, l', rfl, h, e⟩
  · cases h
  · have i := (Inv.init nm).run h0 l
    obtain ⟨hm, hv⟩ := new_attached h0 i h
    refine ⟨S, ⟨l, o, n, l', rfl, h.1, h.2⟩, ?_⟩
    rw [run_append, ← e]
    exact named_run h0 l' i (c := .cls o n S) rfl hv

theorem name_inj {n m : Str} {k : TypeId} (h : (init.run nm cs).reg.names n = some k) (h' : (init.run nm cs).reg.names m = some k) : n = m := by
  have i := (Inv.init nm).run h0 cs
  obtain ⟨x, hx, ex⟩ := i.ok.names _ _ h
  obtain ⟨y, hy, ey⟩ := i.ok.names _ _ h'
  rw [hx] at hy; cases hy
  exact ex.symm.trans ey

omit h0 in
theorem Defines.used {T : RType} {c : Ptr} (h : Defines nm cs T c) : T ∈ cs.flatMap Call.types := by
  obtain ⟨l, o, n, l', rfl, -, -⟩ := h
  simp [Call.types]

omit h0 in
theorem Declares.used {T : RType} {c : Ptr} {f : Caster} (h : Declares nm cs c T f) : T ∈ cs.flatMap Call.types := by
  obtain ⟨l, l', rfl, -, -⟩ := h
  simp [Call.types]

omit h0 in
theorem told (ht : ToldApart nm cs) {S T : RType} (hS : S ∈ cs.flatMap Call.types) (hT : T ∈ cs.flatMap Call.types) (e : nm S = nm T) : S = T :=
  ht S (List.mem_append_left _ hS) T (List.mem_append_left _ hT) e

theorem Declares.named {B : RType} {c : Ptr} {f : Caster} (h : Declares nm cs c B f) : (init.run nm cs).world.kind c = some .cls ∧
    ∃ k b f', (init.run nm cs).reg.names (nm B) = some k ∧ (init.run nm cs).world.metaClass k = some b ∧
      (k, f') ∈ ((init.run nm cs).world.cls c).bases := by
  obtain ⟨l, l', rfl, h, -⟩ := h
  have i := (Inv.init nm).run h0 l
  obtain ⟨hk, ⟨b, hb⟩, f', hf⟩ := adds_listed h0 i h
  have j := i.step h0 (.base c B f)
  rw [run_append]
  obtain ⟨hk', hf'⟩ := keep_run h0 l' j hk hf
  have hv : Reg.isVoid B = false := by
    cases hv : Reg.isVoid B with
    | false => rfl
    | true =>
      have e : (init.run nm l).idNow nm B = 0 := by simp [Prog.idNow, Reg.metaTypeId, hv]
      rw [e] at hb
      have := (i.loose.mc _ _ hb).1
      rw [i.valid0] at this
      cases this
  exact ⟨hk', _, b, f', named_run h0 l' i (c := .base c B f) rfl hv, (Keeps.run h0 (.base c B f :: l') i).cls _ _ hb, hf'⟩

theorem listed_declared {c : Ptr} {x : TypeId × Caster} (hk : (init.run nm cs).world.kind c = some .cls)
    (h : x ∈ ((init.run nm cs).world.cls c).bases) : ∃ B, Declares nm cs c B x.2 ∧ (init.run nm cs).reg.names (nm B) = some x.1 := by
  rcases bases_run h0 cs (Inv.init nm) hk h with ⟨_, h⟩ | ⟨l, B, l', rfl, h, e, hfirst⟩
  · cases h
  · have i := (Inv.init nm).run h0 l
    have j := i.step h0 (.base c B x.2)
    have hv : Reg.isVoid B = false := by
      cases hv : Reg.isVoid B with
      | false => rfl
      | true =>
        have e : (init.run nm l).idNow nm B = 0 := by simp [Prog.idNow, Reg.metaTypeId, hv]
        obtain ⟨_, ⟨b, hb⟩, _⟩ := adds_listed h0 i h
        rw [e] at hb
        have := (i.loose.mc _ _ hb).1
        rw [i.valid0] at this
        cases this
    refine ⟨B, ⟨l, l', rfl, h, ?_⟩, ?_⟩
    · rintro m g m' rfl hm
      have im := (Inv.init nm).run h0 m
      obtain ⟨hk', -, g', hg⟩ := adds_listed h0 im hm
      have hg' := (keep_run h0 m' (im.step h0 _) hk' hg).2
      refine hfirst _ (by rw [run_append]; exact hg') ?_
      have hn := named_run h0 m' im (c := .base c B g) rfl hv
      have hn' : (init.run nm (m ++ .base c B g :: m')).reg.names (nm B) = some ((init.run nm m).idNow nm B) := by rw [run_append]; exact hn
      have h1 := (Keeps.use i B).reg.names _ _ hn'
      rw [(i.idNow h0 B hv).1] at h1
      rw [← e]
      exact (Option.some.inj h1).symm
    · rw [run_append, ← e]
      exact named_run h0 l' i (c := .base c B x.2) rfl hv

end

/-- C97: the cast function from a class to a base is that of one declaration. -/
theorem C97_one_function {cs : List Call} {c : Ptr} {B : RType} {f g : Caster} (hf : Declares nm cs c B f) (hg : Declares nm cs c B g) : f = g := by
  obtain ⟨l, l', e, h1, h2⟩ := hf
  obtain ⟨m, m', e', h3, h4⟩ := hg
  rw [e] at e'
  rcases List.append_eq_append_iff.1 e' with ⟨a, rfl, ha⟩ | ⟨a, rfl, ha⟩
  · cases a with
    | nil => injection ha with ha; injection ha
    | cons x a =>
      injection ha with hx ha
      subst hx
      exact absurd h1 (h4 _ _ _ rfl)
  · cases a with
    | nil => injection ha with ha; injection ha with _ _ ha; exact ha.symm
    | cons x a =>
      injection ha with hx ha
      subst hx
      exact absurd h3 (h2 _ _ _ rfl)

/-- C97: whatever was declared successfully was so a first time. -/
theorem C97_declared {cs l l' : List Call} {c : Ptr} {B : RType} {f : Caster} (e : cs = l ++ .base c B f :: l')
    (h : ((init.run nm l).step nm (.base c B f)).2 = .val none) : ∃ g, Declares nm cs c B g := by
  generalize hn : l.length = n
  induction n using Nat.strongRecOn generalizing l l' f with
  | _ n ih =>
    by_cases hk : ∃ k g k', l = k ++ .base c B g :: k' ∧ ((init.run nm k).step nm (.base c B g)).2 = .val none
    · obtain ⟨k, g, k', rfl, hg⟩ := hk
      exact ih k.length (by rw [← hn]; simp) (l := k) (by rw [e, List.append_assoc]; rfl) hg rfl
    · exact ⟨f, l, l', e, h, fun k g k' e' h' => hk ⟨k, g, k', e', h'⟩⟩

/-- C97: after any calls, if texts tell types apart, the class found by the id of a type is the one that `_class` of this very type
    made, and there is one exactly if `_class` of this type made one. -/
theorem C97_class (h0 : ∀ T, nm T ≠ []) (cs : List Call) (T : RType) (c : Ptr) (hT : .idOf T ∈ cs) (hv : Reg.isVoid T = false) (ht : ToldApart nm cs) :
    (init.run nm cs).lookup ((init.run nm cs).idNow nm T) = .val (some c) ↔ Defines nm cs T c := by
  have i := (Inv.init nm).run h0 cs
  obtain ⟨k, hk⟩ := asked_held h0 hT hv
  have e := idNow_held (nm := nm) hv hk
  have hn := i.texts.held _ _ hk
  obtain ⟨x, hx, -⟩ := i.ok.names _ _ hn
  have hu : T ∈ cs.flatMap Call.types := List.mem_flatMap.2 ⟨_, hT, by simp [Call.types]⟩
  rw [e, i.lookup k (.inr ⟨x, hx⟩), i.find_eq]
  constructor
  · intro h
    obtain ⟨S, hS, hn'⟩ := attached h0 (Res.val.inj h)
    rw [told ht hu hS.used (name_inj h0 hn hn')]
    exact hS
  · intro h
    obtain ⟨k', h1, h2⟩ := h.named h0
    rw [hn] at h1
    cases h1
    rw [h2]

/-- C97, for any texts: the class found by the id of a type was made by `_class` of a type with the same text. -/
theorem C97_class_text (h0 : ∀ T, nm T ≠ []) (cs : List Call) (T : RType) (c : Ptr) (hT : .idOf T ∈ cs) (hv : Reg.isVoid T = false) :
    (init.run nm cs).lookup ((init.run nm cs).idNow nm T) = .val (some c) ↔ ∃ S, nm S = nm T ∧ Defines nm cs S c := by
  have i := (Inv.init nm).run h0 cs
  obtain ⟨k, hk⟩ := asked_held h0 hT hv
  have e := idNow_held (nm := nm) hv hk
  have hn := i.texts.held _ _ hk
  obtain ⟨x, hx, -⟩ := i.ok.names _ _ hn
  rw [e, i.lookup k (.inr ⟨x, hx⟩), i.find_eq]
  constructor
  · intro h
    obtain ⟨S, hS, hn'⟩ := attached h0 (Res.val.inj h)
    exact ⟨S, name_inj h0 hn' hn, hS⟩
  · rintro ⟨S, hs, h⟩
    obtain ⟨k', h1, h2⟩ := h.named h0
    rw [hs, hn] at h1
    cases h1
    rw [h2]

/-- C97: a type has one class, and a class one type. -/
theorem C97_unique (h0 : ∀ T, nm T ≠ []) (cs : List Call) (ht : ToldApart nm cs) {S T : RType} {c d : Ptr} (hS : Defines nm cs S c)
    (hT : Defines nm cs T d) : S = T ↔ c = d := by
  have i := (Inv.init nm).run h0 cs
  obtain ⟨k, h1, h2⟩ := hS.named h0
  obtain ⟨k', h1', h2'⟩ := hT.named h0
  constructor
  · rintro rfl
    rw [h1] at h1'; cases h1'
    rw [h2] at h2'; exact Option.some.inj h2'
  · rintro rfl
    have e := i.links.tid _ _ h2
    have e' := i.links.tid _ _ h2'
    rw [← e.symm.trans e'] at h1'
    exact told ht hS.used hT.used (name_inj h0 h1 h1')

/-- a declared base in the lists is a declaration -/
theorem declared_types (h0 : ∀ T, nm T ≠ []) (cs : List Call) (ht : ToldApart nm cs) {d m : Ptr}
    (hk : (init.run nm cs).world.kind d = some .cls) {t : TypeId} {f : Caster} (hx : (t, f) ∈ ((init.run nm cs).world.cls d).bases)
    (hm : (init.run nm cs).world.find t = some m) : ∃ B, Declares nm cs d B f ∧ Defines nm cs B m := by
  have i := (Inv.init nm).run h0 cs
  obtain ⟨B, hB, hn⟩ := listed_declared h0 hk hx
  rw [i.find_eq] at hm
  obtain ⟨S, hS, hn'⟩ := attached h0 hm
  refine ⟨B, hB, ?_⟩
  rw [told ht hB.used hS.used (name_inj h0 hn hn')]
  exact hS

theorem defines_kind (h0 : ∀ T, nm T ≠ []) {cs : List Call} {T : RType} {c : Ptr} (h : Defines nm cs T c) : (init.run nm cs).world.kind c = some .cls := by
  obtain ⟨k, -, h⟩ := h.named h0
  exact (((Inv.init nm).run h0 cs).loose.mc _ _ h).2

theorem base_types (h0 : ∀ T, nm T ≠ []) (cs : List Call) (ht : ToldApart nm cs) {D : RType} {d m : Ptr} (hD : Defines nm cs D d)
    (hb : DeclaredBase (init.run nm cs).world d m) : ∃ B f, Declares nm cs d B f ∧ Defines nm cs B m := by
  obtain ⟨j, hj, hm⟩ := hb
  have hj' : j < ((init.run nm cs).world.cls d).bases.length := hj
  unfold World.baseClass at hm
  rw [dif_pos hj'] at hm
  obtain ⟨B, h⟩ := declared_types h0 cs ht (defines_kind h0 hD) (t := (((init.run nm cs).world.cls d).bases[j]'hj').1)
    (f := (((init.run nm cs).world.cls d).bases[j]'hj').2) (List.getElem_mem hj') hm
  exact ⟨B, _, h⟩

theorem reaches_types (h0 : ∀ T, nm T ≠ []) (cs : List Call) (ht : ToldApart nm cs) {D : RType} {d c : Ptr} (hD : Defines nm cs D d)
    (h : Reaches (init.run nm cs).world d c) : ∃ T fs, Defines nm cs T c ∧ Via nm cs D T fs := by
  induction h generalizing D with
  | refl c => exact ⟨D, [], hD, .refl _⟩
  | step hb _ ih =>
    obtain ⟨B, f, h1, h2⟩ := base_types h0 cs ht hD hb
    obtain ⟨T, fs, h3, h4⟩ := ih h2
    exact ⟨T, _, h3, .step hD h1 h4⟩

/-- C97: the class of one type is, or derives from, the class of another exactly if declarations lead from the one type to the
    other. -/
theorem C97_hierarchy (h0 : ∀ T, nm T ≠ []) (cs : List Call) (ht : ToldApart nm cs) {D T : RType} {d c : Ptr} (hD : Defines nm cs D d)
    (hT : Defines nm cs T c) : Reaches (init.run nm cs).world d c ↔ ∃ fs, Via nm cs D T fs := by
  have i := (Inv.init nm).run h0 cs
  constructor
  · intro h
    obtain ⟨S, fs, h1, h2⟩ := reaches_types h0 cs ht hD h
    rw [(C97_unique h0 cs ht h1 hT).2 rfl] at h2
    exact ⟨fs, h2⟩
  · rintro ⟨fs, h⟩
    induction h generalizing d with
    | refl T => rw [(C97_unique h0 cs ht hD hT).1 rfl]; exact .refl _
    | step h1 h2 _ ih =>
      rename_i D B T e f fs _
      have := (C97_unique h0 cs ht hD h1).1 rfl
      subst this
      obtain ⟨hk, k, b, f', h3, h4, h5⟩ := h2.named h0
      obtain ⟨S, hS, hn⟩ := attached h0 h4
      have := told ht hS.used h2.used (name_inj h0 hn h3)
      subst this
      obtain ⟨j, hj, e⟩ := List.getElem_of_mem h5
      refine .step ⟨j, hj, ?_⟩ (ih hS hT)
      unfold World.baseClass
      rw [dif_pos hj, e, i.find_eq]
      exact h4

/-- ways in the lists are ways of declarations -/
theorem leftPath_via (h0 : ∀ T, nm T ≠ []) (cs : List Call) (ht : ToldApart nm cs) {D T : RType} {d c : Ptr} {fs : List Caster} (hD : Defines nm cs D d)
    (hT : Defines nm cs T c) (h : LeftPath (init.run nm cs).world d c fs) : Via nm cs D T fs := by
  induction h generalizing D with
  | refl c => rw [(C97_unique h0 cs ht hD hT).2 rfl]; exact .refl _
  | step _ hb hm _ _ ih =>
    obtain ⟨B, h1, h2⟩ := declared_types h0 cs ht (defines_kind h0 hD) (by rw [hb]; exact List.mem_append_right _ List.mem_cons_self) hm
    exact .step hD h1 (ih h2 hT)

theorem idOf_step (s : Prog) (T : RType) : s.run nm [.idOf T] = (s.use nm T).1 := rfl

theorem lookup_idNow (h0 : ∀ T, nm T ≠ []) (l l' : List Call) (T : RType) (hv : Reg.isVoid T = false) :
    (init.run nm (l ++ .idOf T :: l')).idNow nm T = (init.run nm l).idNow nm T := by
  have i := (Inv.init nm).run h0 l
  rw [run_append]
  have h := (Reg.metaTypeId_ok (nm := nm) (T := T) i.ok).2.held hv
  exact idNow_held hv ((Keeps.run h0 l' (i.use h0 T)).reg.holders _ _ h)

/-- C97: `meta_cast<T>` of an object whose `classInfo()` names the type `D` and the address `a`, after any calls whose texts tell types
    apart: null if `_class` was not called for both types or no declarations lead from `D` to `T`; otherwise the address along some
    such declarations, which is what `cast` of the two classes gives (C27, C86). It can only fail to end, and only if declarations lead from a type back to it. -/
theorem C97_meta_cast (h0 : ∀ T, nm T ≠ []) (cs : List Call) (D T : RType) (a : Addr) (hD : Reg.isVoid D = false) (hT : Reg.isVoid T = false)
    (ht : ToldApart nm (cs ++ [.idOf D, .idOf T])) :
    let all := cs ++ [.idOf D, .idOf T]
    let r := (init.run nm cs).metaCast nm D a T
    r.1 = init.run nm all ∧
    (∀ x y, Defines nm all D x → Defines nm all T y → r.2 = (init.run nm all).world.cast x (some y) a) ∧
    ((∃ fs x y, Defines nm all D x ∧ Defines nm all T y ∧ Via nm all D T fs ∧ r.2 = .val (applyCasts fs a)) ∨
     ((∀ x y fs, Defines nm all D x → Defines nm all T y → ¬Via nm all D T fs) ∧ r.2 = .val 0) ∨
     (r.2 = .diverge ∧ ∃ B fs f gs, Via nm all D B fs ∧ Via nm all B B (f :: gs))) := by
  dsimp only
  have i := (Inv.init nm).run h0 (cs ++ [.idOf D, .idOf T])
  have e1 : (((init.run nm cs).use nm D).1.use nm T).1 = init.run nm (cs ++ [.idOf D, .idOf T]) := by rw [run_append]; rfl
  refine ⟨e1, ?_⟩
  have hf := C97_class h0 (cs ++ [.idOf D, .idOf T]) D
  have hg := C97_class h0 (cs ++ [.idOf D, .idOf T]) T
  have lk : ((init.run nm cs).use nm D).1.lookup ((init.run nm cs).use nm D).2 =
      (init.run nm (cs ++ [.idOf D, .idOf T])).lookup ((init.run nm (cs ++ [.idOf D, .idOf T])).idNow nm D) := by
    have j := (Inv.init nm).run h0 cs
    have jd := j.use h0 D
    have en : (init.run nm (cs ++ [.idOf D, .idOf T])).idNow nm D = ((init.run nm cs).use nm D).2 := lookup_idNow h0 cs [.idOf T] D hD
    obtain ⟨hn, hz⟩ := j.idNow h0 D hD
    obtain ⟨x, hx, -⟩ := jd.ok.names _ _ hn
    have hx' : ((init.run nm cs).use nm D).1.reg.info ((init.run nm cs).use nm D).2 = some x := hx
    have hn2 := (Keeps.use jd T).reg.names _ _ hn
    rw [e1] at hn2
    obtain ⟨y, hy, -⟩ := i.ok.names _ _ hn2
    have hy' : (init.run nm (cs ++ [.idOf D, .idOf T])).reg.info ((init.run nm cs).use nm D).2 = some y := hy
    rw [en, jd.lookup _ (.inr ⟨x, hx'⟩), i.lookup _ (.inr ⟨y, hy'⟩), jd.find_eq, i.find_eq, ← e1, (use_same (nm := nm) _ T).1]
  have lt : (((init.run nm cs).use nm D).1.use nm T).1.lookup (((init.run nm cs).use nm D).1.use nm T).2 =
      (init.run nm (cs ++ [.idOf D, .idOf T])).lookup ((init.run nm (cs ++ [.idOf D, .idOf T])).idNow nm T) := by
    have h := lookup_idNow h0 (cs ++ [.idOf D]) [] T hT
    rw [List.append_assoc] at h
    have h : (init.run nm (cs ++ [.idOf D, .idOf T])).idNow nm T = (init.run nm (cs ++ [.idOf D])).idNow nm T := h
    rw [h, run_append nm cs [.idOf D], idOf_step, e1]
    rfl
  unfold Prog.metaCast
  dsimp only
  rw [lk, lt, e1]
  have cls : ∀ U, (U = D ∨ U = T) → Reg.isVoid U = false → ∃ o, (init.run nm (cs ++ [.idOf D, .idOf T])).lookup
      ((init.run nm (cs ++ [.idOf D, .idOf T])).idNow nm U) = .val o := by
    intro U hU hv
    obtain ⟨k, hk⟩ := asked_held (T := U) (cs := cs ++ [.idOf D, .idOf T]) h0 (by rcases hU with rfl | rfl <;> simp) hv
    obtain ⟨x, hx, -⟩ := i.ok.names _ _ (i.texts.held _ _ hk)
    rw [idNow_held hv hk, i.lookup _ (.inr ⟨x, hx⟩)]
    exact ⟨_, rfl⟩
  obtain ⟨of, ef⟩ := cls D (.inl rfl) hD
  obtain ⟨ot, et⟩ := cls T (.inr rfl) hT
  have mD : .idOf D ∈ cs ++ [.idOf D, .idOf T] := by simp
  have mT : .idOf T ∈ cs ++ [.idOf D, .idOf T] := by simp
  rw [ef, et]
  simp only [Res.bind]
  refine ⟨fun x y hx hy => ?_, ?_⟩
  · rw [← hf x mD hD ht, ef] at hx
    rw [← hg y mT hT ht, et] at hy
    cases hx; cases hy; rfl
  cases of with
  | none => exact .inr (.inl ⟨fun x _ _ hx => (by rw [← hf x mD hD ht, ef] at hx; cases hx), rfl⟩)
  | some d =>
    cases ot with
    | none => exact .inr (.inl ⟨fun _ y _ _ hy => (by rw [← hg y mT hT ht, et] at hy; cases hy), rfl⟩)
    | some c =>
      have dD := (hf d mD hD ht).1 ef
      have dT := (hg c mT hT ht).1 et
      dsimp only
      generalize hcs : cs ++ [.idOf D, .idOf T] = all at *
      have hk := defines_kind h0 dD
      obtain ⟨c1, c2, c3⟩ := i.loose.castF c (init.run nm all).world.depth d a
      obtain ⟨s1, s2, s3⟩ := i.loose.exact (own := World.isTarget c) (stop := (· = c)) (fun x => by by_cases h : c = x <;> simp [World.isTarget, h, eq_comm]) hk (N := (init.run nm all).world.depth) (Nat.le_succ _)
      rw [i.loose.inheritedFromF] at c1 c2 c3
      unfold World.cast
      rcases e : Dfs.dfs (World.isTarget c) (World.graph (init.run nm all).world) (init.run nm all).world.depth d with _ | _ | u
      · rw [e] at c3 s3
        right; right
        refine ⟨c3 rfl, ?_⟩
        obtain ⟨p, m, w1, -, hb, w2⟩ := (s3 rfl).2
        have reach : ∀ {x y : Ptr}, Walks (init.run nm all).world (· = c) x y → Reaches (init.run nm all).world x y := by
          intro x y h
          induction h with
          | refl => exact .refl _
          | step _ h _ ih => exact .step h ih
        obtain ⟨B, fs, hB, v1⟩ := reaches_types h0 all ht dD (reach w1)
        obtain ⟨B', f, hf', hB'⟩ := base_types h0 all ht hB hb
        obtain ⟨B'', gs, hB'', v2⟩ := reaches_types h0 all ht hB' (reach w2)
        rw [(C97_unique h0 all ht hB'' hB).2 rfl] at v2
        exact ⟨B, fs, f, gs, v1, .step hB hf' v2⟩
      · rw [e] at c2 s2
        refine .inr (.inl ⟨fun x y fs hx hy hv => ?_, c2 rfl⟩)
        have ex := (C97_unique h0 all ht dD hx).1 rfl
        have ey := (C97_unique h0 all ht dT hy).1 rfl
        exact (s2.1 rfl).1 c ((C97_hierarchy h0 all ht dD dT).2 ⟨fs, hv⟩) rfl
      · rw [e] at c1
        obtain ⟨fs, p, ec⟩ := c1 rfl
        exact .inl ⟨fs, d, c, dD, dT, leftPath_via h0 all ht dD dT p, ec⟩

/-! two classes, the second derived from the first -/

private def plain : Traits := ⟨true, true, false, false, true, true, true, true, true, true, true⟩
private def tB : RType := ⟨.none, .base ⟨1, .cls, 4, plain⟩ ⟨false, false⟩⟩
private def tD : RType := ⟨.none, .base ⟨2, .cls, 8, plain⟩ ⟨false, false⟩⟩
private def tE : RType := ⟨.none, .base ⟨3, .cls, 8, plain⟩ ⟨false, false⟩⟩
/-- `D` derives from `B`, at offset 16 -/
private def defs : List Call :=
  [.cls World.globalNs ['B'] tB, .cls World.globalNs ['D'] tD, .base 3 tB (· + 16), .idOf tB, .idOf tD, .idOf tE]

/-- C97, what it needs: of two types with the same text, where `_class` was called for the one only, `meta_cast` to the other takes an
    object of the one for one of the other. -/
theorem C97_same_text_false : ∃ (nm : RType → Str) (cs : List Call) (S T : RType) (a : Addr), (∀ U, nm U ≠ []) ∧ S ≠ T ∧
    (describe S).size < (describe T).size ∧ (∀ o n, .cls o n T ∉ cs) ∧ (∀ p B f, .base p B f ∉ cs) ∧ a ≠ 0 ∧
    ((init.run nm cs).metaCast nm S a T).2 = .val a :=
  ⟨fun _ => ['X'], [.cls World.globalNs ['B'] tB], tB, tD, 500, fun _ => nofun, by decide, by decide,
    fun o n h => (by cases h with | tail _ h => cases h), fun p B f h => (by cases h with | tail _ h => cases h), by decide, by decide +kernel⟩

/-- C97, what it is not: the class `_class<T>` returns need not be the one of `T`: for a name in use it is the class of that name, whatever
    its type. -/
theorem C97_name_in_use_false : ∃ (nm : RType → Str) (S T : RType) (c : Ptr), Function.Injective nm ∧ S ≠ T ∧
    let s := init.run nm [.cls World.globalNs ['B'] S]
    (s.step nm (.cls World.globalNs ['B'] T)).2 = .val (some c) ∧ (s.use nm T).1.lookup (s.idNow nm T) = .val none ∧
    (s.use nm S).1.lookup (s.idNow nm S) = .val (some c) :=
  ⟨Ex.rname, tB, tD, 2, Ex.rname_injective, by decide, by decide +kernel⟩

private theorem defsToldApart (cs : List Call) : ToldApart Ex.rname cs := fun _ _ _ _ e => Ex.rname_injective e
-- the hypotheses of the theorems above
example : Defines Ex.rname defs tB 2 ∧ Defines Ex.rname defs tD 3 ∧ (∃ f, Declares Ex.rname defs 3 tB f) ∧ .idOf tB ∈ defs ∧ Reg.isVoid tB = false ∧
    Reg.isVoid tD = false ∧ ToldApart Ex.rname (defs ++ [.idOf tD, .idOf tB]) :=
  ⟨⟨[], _, _, _, rfl, by decide +kernel⟩, ⟨[.cls World.globalNs ['B'] tB], _, _, _, rfl, by decide +kernel⟩,
    C97_declared (l := [.cls World.globalNs ['B'] tB, .cls World.globalNs ['D'] tD]) (f := (· + 16)) rfl (by decide +kernel), by simp [defs], by decide, by decide,
    defsToldApart _⟩
-- to the base, also when declared again with another function, not back, not to a class without `_class`; with the declaration back as well, a cast to another class does not end
example :
    ((init.run Ex.rname defs).metaCast Ex.rname tD 500 tB).2 = .val 516 ∧
    ((init.run Ex.rname (defs ++ [.base 3 tB (· + 99)])).metaCast Ex.rname tD 500 tB).2 = .val 516 ∧
    ((init.run Ex.rname defs).metaCast Ex.rname tB 500 tD).2 = .val 0 ∧
    ((init.run Ex.rname defs).metaCast Ex.rname tD 500 tE).2 = .val 0 ∧
    ((init.run Ex.rname (defs ++ [.base 2 tD (· - 16), .cls World.globalNs ['E'] tE])).metaCast Ex.rname tD 500 tE).2 = .diverge := by decide +kernel

end Rtti.Props
