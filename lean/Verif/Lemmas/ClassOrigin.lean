import Verif.Lemmas.ClassFind
import Verif.Lemmas.VariantIds
/-
Where the classes and bases come from that a program has after its calls (`Props/ClassOrigin.lean`).
-/
set_option autoImplicit false
namespace Rtti
namespace World

theorem getOrCreate_metaClass (w : World) (o : Ptr) (k : Cat) (n : Str) (t : TypeId) (l : World → Res (Option Ptr)) :
    (w.getOrCreate o k n t l fun w _ => w).1.metaClass = w.metaClass := by
  unfold getOrCreate
  dsimp only
  split
  · split <;> rfl
  all_goals rfl

/-- a class is attached to a type only when it is created -/
theorem metaClass_step {w : World} (op : Op) {k : TypeId} {p : Ptr} (h : (w.step op).1.metaClass k = some p) :
    w.metaClass k = some p ∨ ∃ o n, op = .createClass o n k ∧ w.getItem o .cls n = .val none ∧ (w.step op).2 = .val (some p) := by
  cases op with
  | registerType t =>
    simp only [World.step] at h
    split at h <;> exact .inl h
  | createNamespace o n => rw [show (w.step (.createNamespace o n)).1.metaClass = w.metaClass from getOrCreate_metaClass ..] at h; exact .inl h
  | createEnum o n => rw [show (w.step (.createEnum o n)).1.metaClass = w.metaClass from getOrCreate_metaClass ..] at h; exact .inl h
  | createMethod o n b =>
    simp only [World.step, createMethod] at h
    split at h
    · split at h
      · exact .inl h
      · rw [getOrCreate_metaClass] at h; exact .inl h
    · exact .inl h
  | createProperty o n b =>
    simp only [World.step, createProperty] at h
    split at h
    · split at h
      · exact .inl h
      · rw [getOrCreate_metaClass] at h; exact .inl h
    · exact .inl h
  | createConstructor o n b =>
    simp only [World.step, createConstructor] at h
    split at h
    · split at h
      · exact .inl h
      · rw [getOrCreate_metaClass] at h; exact .inl h
    · exact .inl h
  | addBase d t c =>
    rcases Lazy.step_addBase w d t c with e | e <;> rw [e] at h
    · exact .inl h
    · rw [(Lazy.addBaseClass_frame w d t c).2.2.2.2.1] at h; exact .inl h
  | createClass o n t =>
    simp only [World.step] at h ⊢
    unfold createClass at h ⊢
    cases hg : w.getItem o .cls n with
    | val x =>
      cases x with
      | some q => rw [hg] at h; exact .inl h
      | none =>
        rw [hg] at h
        dsimp only at h ⊢
        by_cases hv : (!w.valid t) = true
        · rw [if_pos hv] at h; exact .inl h
        · rw [if_neg hv] at h ⊢
          by_cases hm : (w.metaClass t).isSome = true
          · rw [if_pos hm] at h; exact .inl h
          · rw [if_neg hm] at h ⊢
            unfold getOrCreate at h ⊢
            dsimp only at h ⊢
            rw [hg] at h ⊢
            dsimp only at h ⊢
            split at h
            · rename_i ha
              rw [if_pos ha]
              dsimp only at h ⊢
              by_cases hk : k = t
              · subst hk
                rw [upd_same] at h
                cases h
                exact .inr ⟨o, n, rfl, hg, rfl⟩
              · rw [upd_ne _ _ hk] at h
                exact .inl h
            · exact .inl h
    | throw e => rw [hg] at h; exact .inl h
    | ub => rw [hg] at h; exact .inl h
    | diverge => rw [hg] at h; exact .inl h

/-- a base is in the list of a class only if it was declared, and with the function of the first declaration -/
theorem bases_step {w : World} (i : Loose w) (hl : Listed w) (op : Op) {p : Ptr} {x : TypeId × Caster} (hk : (w.step op).1.kind p = some .cls)
    (h : x ∈ ((w.step op).1.cls p).bases) :
    (w.kind p = some .cls ∧ x ∈ (w.cls p).bases) ∨ (op = .addBase p x.1 x.2 ∧ (w.step op).2 = .val none ∧ ∀ y ∈ (w.cls p).bases, y.1 ≠ x.1) := by
  by_cases ho : ∃ d t c, op = .addBase d t c
  · obtain ⟨d, t, c, rfl⟩ := ho
    by_cases hd : w.kind d = some .cls
    · cases hf : w.find t with
      | none => rw [addBase_refused c (.inr hf)] at h hk; exact .inl ⟨hk, h⟩
      | some b =>
        obtain ⟨e1, e2, -, -, e3⟩ := addBase_cls i hl hd hf c
        rw [e2] at hk
        rw [(e3 p).2.1] at h
        split at h
        · rename_i e
          subst e
          unfold basesAdd at h
          split at h
          · exact .inl ⟨hk, h⟩
          · rename_i hn
            rcases List.mem_append.1 h with h | h
            · exact .inl ⟨hk, h⟩
            · cases List.mem_singleton.1 h
              exact .inr ⟨rfl, e1, fun y hy e => hn (List.any_eq_true.2 ⟨y, hy, by simp [e]⟩)⟩
        · exact .inl ⟨hk, h⟩
    · rw [addBase_refused c (.inl hd)] at h hk; exact .inl ⟨hk, h⟩
  · have g := Grown.step i op fun d t c e => ho ⟨d, t, c, e⟩
    rcases g.classes p hk with h' | ⟨h', -⟩
    · rw [g.same p h'] at h; exact .inl ⟨h', h⟩
    · rw [h'] at h; cases h

theorem kind_cls_step {w : World} (i : Loose w) (hl : Listed w) (op : Op) {p : Ptr} (hk : w.kind p = some .cls) :
    (w.step op).1.kind p = some .cls :=
  ((i.step op).mc _ p (keeps_step i op (hl p hk))).2

/-- and stays in the list -/
theorem bases_keep {w : World} (i : Loose w) (hl : Listed w) (op : Op) {p : Ptr} {x : TypeId × Caster} (hk : w.kind p = some .cls)
    (h : x ∈ (w.cls p).bases) : x ∈ ((w.step op).1.cls p).bases := by
  by_cases ho : ∃ d t c, op = .addBase d t c
  · obtain ⟨d, t, c, rfl⟩ := ho
    by_cases hd : w.kind d = some .cls
    · cases hf : w.find t with
      | none => rw [addBase_refused c (.inr hf)]; exact h
      | some b =>
        obtain ⟨-, -, -, -, e3⟩ := addBase_cls i hl hd hf c
        rw [(e3 p).2.1]
        split
        · unfold basesAdd
          split
          · exact h
          · exact List.mem_append_left _ h
        · exact h
    · rw [addBase_refused c (.inl hd)]; exact h
  · rw [(Grown.step i op fun d t c e => ho ⟨d, t, c, e⟩).same p hk]; exact h

/-- a declaration that succeeds puts the base into the list -/
theorem addBase_listed {w : World} (i : Loose w) (hl : Listed w) {p : Ptr} {t : TypeId} {c : Caster} (h : (w.step (.addBase p t c)).2 = .val none) :
    w.kind p = some .cls ∧ (∃ b, w.find t = some b) ∧ ∃ f, (t, f) ∈ ((w.step (.addBase p t c)).1.cls p).bases := by
  have hk : w.kind p = some .cls := by
    simp only [World.step] at h
    split at h
    · assumption
    · cases h
  cases hf : w.find t with
  | none =>
    simp only [World.step, hk, if_true, addBaseClass] at h
    unfold World.find at hf
    split at hf
    · rename_i hv
      simp [hv, hf] at h
    · rename_i hv
      simp [hv] at h
  | some b =>
    obtain ⟨-, -, -, -, e3⟩ := addBase_cls i hl hk hf c
    refine ⟨hk, ⟨b, rfl⟩, ?_⟩
    rw [(e3 p).2.1, if_pos rfl]
    unfold basesAdd
    split
    · rename_i ha
      obtain ⟨x, hx, e⟩ := List.any_eq_true.1 ha
      exact ⟨x.2, by rw [eq_of_beq e]; exact hx⟩
    · exact ⟨c, List.mem_append_right _ (List.mem_singleton.2 rfl)⟩

end World

namespace ClassFind
variable {nm : RType → Str}

/-- `_class<T>(n)` makes the class `c`, new -/
def New (nm : RType → Str) (s : Prog) (o : Ptr) (n : Str) (T : RType) (c : Ptr) : Prop :=
  (s.use nm T).1.world.getItem o .cls n = .val none ∧ (s.step nm (.cls o n T)).2 = .val (some c)

theorem registerType_same (w : World) (t : TypeId) : (w.step (.registerType t)).1.metaClass = w.metaClass ∧
    (w.step (.registerType t)).1.cls = w.cls ∧ (w.step (.registerType t)).1.kind = w.kind := by
  simp only [World.step]
  split <;> exact ⟨rfl, rfl, rfl⟩

theorem use_same (s : Prog) (T : RType) : (s.use nm T).1.world.metaClass = s.world.metaClass ∧ (s.use nm T).1.world.cls = s.world.cls ∧
    (s.use nm T).1.world.kind = s.world.kind := registerType_same _ _

theorem found_step (s : Prog) (c : Call) {k : TypeId} {p : Ptr} (h : (s.step nm c).1.world.metaClass k = some p) :
    s.world.metaClass k = some p ∨ ∃ o n S, c = .cls o n S ∧ New nm s o n S p ∧ s.idNow nm S = k := by
  cases c with
  | idOf T => left; rw [← (use_same (nm := nm) s T).1]; exact h
  | cls o n T =>
    rcases World.metaClass_step (.createClass o n (s.idNow nm T)) h with h | ⟨o', n', e, h1, h2⟩
    · left; rw [← (use_same (nm := nm) s T).1]; exact h
    · cases e; exact .inr ⟨o, n, T, rfl, ⟨h1, h2⟩, rfl⟩
  | base d T f =>
    rcases World.metaClass_step (.addBase d (s.idNow nm T) f) h with h | ⟨o', n', e, h1, h2⟩
    · left; rw [← (use_same (nm := nm) s T).1]; exact h
    · cases e
  | conv S T f fn =>
    left
    simp only [Prog.step] at h
    split at h <;> exact h
  | unconv S T =>
    left
    simp only [Prog.step] at h
    split at h <;> exact h
  | other op =>
    left
    cases op with
    | registerType _ => exact h
    | createClass _ _ _ => exact h
    | addBase _ _ _ => exact h
    | _ =>
      rcases World.metaClass_step _ h with h | ⟨o', n', e, -⟩
      · exact h
      · cases e

theorem found_run (cs : List Call) {k : TypeId} {p : Ptr} : ∀ s : Prog, (s.run nm cs).world.metaClass k = some p →
    s.world.metaClass k = some p ∨ ∃ l o n S l', cs = l ++ .cls o n S :: l' ∧ New nm (s.run nm l) o n S p ∧ (s.run nm l).idNow nm S = k := by
  induction cs with
  | nil => intro s h; exact .inl h
  | cons c cs ih =>
    intro s h
    rcases ih _ h with h | ⟨l, o, n, S, l', e, h⟩
    · rcases found_step s c h with h | ⟨o, n, S, rfl, h'⟩
      · exact .inl h
      · exact .inr ⟨[], o, n, S, cs, rfl, h'⟩
    · exact .inr ⟨c :: l, o, n, S, l', by rw [e]; rfl, h⟩

/-- `_base<B>` on the class `p` with the cast function `f` succeeds -/
def Adds (nm : RType → Str) (s : Prog) (p : Ptr) (B : RType) (f : Caster) : Prop := (s.step nm (.base p B f)).2 = .val none

theorem bases_step (h0 : ∀ T, nm T ≠ []) {s : Prog} (i : Inv nm s) (c : Call) {p : Ptr} {x : TypeId × Caster}
    (hk : (s.step nm c).1.world.kind p = some .cls) (h : x ∈ ((s.step nm c).1.world.cls p).bases) :
    (s.world.kind p = some .cls ∧ x ∈ (s.world.cls p).bases) ∨ ∃ B, c = .base p B x.2 ∧ Adds nm s p B x.2 ∧ s.idNow nm B = x.1 ∧
      ∀ y ∈ (s.world.cls p).bases, y.1 ≠ x.1 := by
  have used : ∀ T, ((s.use nm T).1.world.kind p = some .cls ∧ x ∈ ((s.use nm T).1.world.cls p).bases) →
      s.world.kind p = some .cls ∧ x ∈ (s.world.cls p).bases := by
    intro T h
    rw [(use_same (nm := nm) s T).2.1, (use_same (nm := nm) s T).2.2] at h
    exact h
  cases c with
  | idOf T => exact .inl (used T ⟨hk, h⟩)
  | cls o n T =>
    have j := i.use h0 T
    rcases World.bases_step j.loose j.listed (.createClass o n (s.idNow nm T)) hk h with h | ⟨e, -⟩
    · exact .inl (used T h)
    · cases e
  | base d T f =>
    have j := i.use h0 T
    rcases World.bases_step j.loose j.listed (.addBase d (s.idNow nm T) f) hk h with h | ⟨e, e', e''⟩
    · exact .inl (used T h)
    · injection e with e1 e2 e3
      subst e1; subst e3
      exact .inr ⟨T, rfl, e', e2, by rw [← (use_same (nm := nm) s T).2.1]; exact e''⟩
  | conv S T f fn =>
    left
    have e : (s.step nm (.conv S T f fn)).1.world = s.world := by
      simp only [Prog.step]
      split <;> rfl
    rw [e] at h hk
    exact ⟨hk, h⟩
  | unconv S T =>
    left
    have e : (s.step nm (.unconv S T)).1.world = s.world := by
      simp only [Prog.step]
      split <;> rfl
    rw [e] at h hk
    exact ⟨hk, h⟩
  | other op =>
    left
    cases op with
    | registerType _ => exact ⟨hk, h⟩
    | createClass _ _ _ => exact ⟨hk, h⟩
    | addBase _ _ _ => exact ⟨hk, h⟩
    | _ =>
      rcases World.bases_step i.loose i.listed _ hk h with h | ⟨e, -⟩
      · exact h
      · cases e

theorem bases_run (h0 : ∀ T, nm T ≠ []) (cs : List Call) {p : Ptr} {x : TypeId × Caster} : ∀ {s : Prog}, Inv nm s →
    (s.run nm cs).world.kind p = some .cls → x ∈ ((s.run nm cs).world.cls p).bases →
    (s.world.kind p = some .cls ∧ x ∈ (s.world.cls p).bases) ∨
    ∃ l B l', cs = l ++ .base p B x.2 :: l' ∧ Adds nm (s.run nm l) p B x.2 ∧ (s.run nm l).idNow nm B = x.1 ∧
      ∀ y ∈ ((s.run nm l).world.cls p).bases, y.1 ≠ x.1 := by
  induction cs with
  | nil => intro s _ hk h; exact .inl ⟨hk, h⟩
  | cons c cs ih =>
    intro s i hk h
    rcases ih (i.step h0 c) hk h with ⟨hk, h⟩ | ⟨l, B, l', e, h⟩
    · rcases bases_step h0 i c hk h with h | ⟨B, rfl, h'⟩
      · exact .inl h
      · exact .inr ⟨[], B, cs, rfl, h'⟩
    · exact .inr ⟨c :: l, B, l', by rw [e]; rfl, h⟩

theorem keep_step (h0 : ∀ T, nm T ≠ []) {s : Prog} (i : Inv nm s) (c : Call) {p : Ptr} {x : TypeId × Caster} (hk : s.world.kind p = some .cls)
    (h : x ∈ (s.world.cls p).bases) : (s.step nm c).1.world.kind p = some .cls ∧ x ∈ ((s.step nm c).1.world.cls p).bases := by
  have used : ∀ T, (s.use nm T).1.world.kind p = some .cls ∧ x ∈ ((s.use nm T).1.world.cls p).bases := by
    intro T
    rw [(use_same (nm := nm) s T).2.1, (use_same (nm := nm) s T).2.2]
    exact ⟨hk, h⟩
  cases c with
  | idOf T => exact used T
  | cls o n T =>
    have j := i.use h0 T
    exact ⟨World.kind_cls_step j.loose j.listed _ (used T).1, World.bases_keep j.loose j.listed _ (used T).1 (used T).2⟩
  | base d T f =>
    have j := i.use h0 T
    exact ⟨World.kind_cls_step j.loose j.listed _ (used T).1, World.bases_keep j.loose j.listed _ (used T).1 (used T).2⟩
  | conv S T f fn =>
    simp only [Prog.step]
    split <;> exact ⟨hk, h⟩
  | unconv S T =>
    simp only [Prog.step]
    split <;> exact ⟨hk, h⟩
  | other op =>
    cases op with
    | registerType _ => exact ⟨hk, h⟩
    | createClass _ _ _ => exact ⟨hk, h⟩
    | addBase _ _ _ => exact ⟨hk, h⟩
    | _ => exact ⟨World.kind_cls_step i.loose i.listed _ hk, World.bases_keep i.loose i.listed _ hk h⟩

theorem keep_run (h0 : ∀ T, nm T ≠ []) (cs : List Call) {p : Ptr} {x : TypeId × Caster} : ∀ {s : Prog}, Inv nm s → s.world.kind p = some .cls →
    x ∈ (s.world.cls p).bases → (s.run nm cs).world.kind p = some .cls ∧ x ∈ ((s.run nm cs).world.cls p).bases := by
  induction cs with
  | nil => intro s _ hk h; exact ⟨hk, h⟩
  | cons c cs ih =>
    intro s i hk h
    obtain ⟨hk, h⟩ := keep_step h0 i c hk h
    exact ih (i.step h0 c) hk h

theorem adds_listed (h0 : ∀ T, nm T ≠ []) {s : Prog} (i : Inv nm s) {p : Ptr} {B : RType} {f : Caster} (h : Adds nm s p B f) :
    (s.step nm (.base p B f)).1.world.kind p = some .cls ∧ (∃ b, s.world.metaClass (s.idNow nm B) = some b) ∧
    ∃ f', (s.idNow nm B, f') ∈ ((s.step nm (.base p B f)).1.world.cls p).bases := by
  have j := i.use h0 B
  obtain ⟨hk, ⟨b, hb⟩, hf⟩ := World.addBase_listed j.loose j.listed (p := p) (t := s.idNow nm B) (c := f) h
  refine ⟨World.kind_cls_step j.loose j.listed _ hk, ⟨b, ?_⟩, hf⟩
  rw [← (use_same (nm := nm) s B).1]
  unfold World.find at hb
  split at hb
  · exact hb
  · cases hb

theorem new_attached (h0 : ∀ T, nm T ≠ []) {s : Prog} (i : Inv nm s) {o p : Ptr} {n : Str} {T : RType} (h : New nm s o n T p) :
    (s.step nm (.cls o n T)).1.world.metaClass (s.idNow nm T) = some p ∧ Reg.isVoid T = false := by
  have j := i.use h0 T
  have hm : (s.step nm (.cls o n T)).1.world.metaClass (s.idNow nm T) = some p := World.createClass_new j.loose h.1 h.2
  refine ⟨hm, ?_⟩
  cases hv : Reg.isVoid T with
  | false => rfl
  | true =>
    have e : s.idNow nm T = 0 := by simp [Prog.idNow, Reg.metaTypeId, hv]
    have k := i.step h0 (.cls o n T)
    rw [e] at hm
    have := (k.loose.mc _ _ hm).1
    rw [k.valid0] at this
    cases this

/-- the id of a type that was asked for is found under its text ever after -/
theorem named_run (h0 : ∀ T, nm T ≠ []) (l : List Call) {s : Prog} (i : Inv nm s) {c : Call} {T : RType} (hc : (s.step nm c).1.reg = (s.use nm T).1.reg)
    (hv : Reg.isVoid T = false) : ((s.step nm c).1.run nm l).reg.names (nm T) = some (s.idNow nm T) := by
  have k := i.step h0 c
  exact (Keeps.run h0 l k).reg.names _ _ (by rw [hc]; exact (i.idNow h0 T hv).1)

end ClassFind
end Rtti
