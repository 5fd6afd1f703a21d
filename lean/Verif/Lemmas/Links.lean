import Verif.Lemmas.Circles
import Verif.Lemmas.WorldStep
/-! The lists of base and derived classes after any calls, also with circles (C26). -/
set_option autoImplicit false
namespace Rtti.World
open Spec

/-- the lists mirror each other -/
structure Links (w : World) : Prop where
  tid : ∀ t p, w.metaClass t = some p → (w.cls p).typeId = t
  bases : ∀ p, w.kind p = some .cls → ∀ x ∈ (w.cls p).bases, ∃ b, w.metaClass x.1 = some b ∧ (w.cls p).typeId ∈ (w.cls b).derived
  derived : ∀ b, w.kind b = some .cls → ∀ t ∈ (w.cls b).derived,
    ∃ d, w.metaClass t = some d ∧ (w.cls b).typeId ∈ (w.cls d).bases.map (·.1)
  bnodup : ∀ p, w.kind p = some .cls → ((w.cls p).bases.map (·.1)).Nodup
  dnodup : ∀ p, w.kind p = some .cls → (w.cls p).derived.Nodup

/-- old classes are as they were, new ones have no bases -/
structure Grown (w w' : World) : Prop where
  same : ∀ p, w.kind p = some .cls → w'.cls p = w.cls p
  classes : ∀ p, w'.kind p = some .cls → w.kind p = some .cls ∨ ((w'.cls p).bases = [] ∧ (w'.cls p).derived = [])
  keeps : ∀ t p, w.metaClass t = some p → w'.metaClass t = some p
  fresh : ∀ t p, w'.metaClass t = some p → w.metaClass t = some p ∨ (w'.cls p).typeId = t

theorem Grown.refl (w : World) : Grown w w := ⟨fun _ _ => rfl, fun _ h => .inl h, fun _ _ h => h, fun _ _ h => .inl h⟩

theorem Links.grown {w w' : World} (i : Loose w) (h : Links w) (g : Grown w w') : Links w' where
  tid t p e := by
    rcases g.fresh t p e with e | e
    · rw [g.same p (i.mc t p e).2]; exact h.tid t p e
    · exact e
  bases p hp x hx := by
    rcases g.classes p hp with hp | ⟨h1, -⟩
    · rw [g.same p hp] at hx ⊢
      obtain ⟨b, h1, h2⟩ := h.bases p hp x hx
      exact ⟨b, g.keeps _ _ h1, by rw [g.same b (i.mc _ _ h1).2]; exact h2⟩
    · rw [h1] at hx; cases hx
  derived p hp x hx := by
    rcases g.classes p hp with hp | ⟨-, h1⟩
    · rw [g.same p hp] at hx ⊢
      obtain ⟨b, h1, h2⟩ := h.derived p hp x hx
      exact ⟨b, g.keeps _ _ h1, by rw [g.same b (i.mc _ _ h1).2]; exact h2⟩
    · rw [h1] at hx; cases hx
  bnodup p hp := by
    rcases g.classes p hp with hp | ⟨h1, -⟩
    · rw [g.same p hp]; exact h.bnodup p hp
    · rw [h1]; exact .nil
  dnodup p hp := by
    rcases g.classes p hp with hp | ⟨-, h1⟩
    · rw [g.same p hp]; exact h.dnodup p hp
    · rw [h1]; exact .nil

theorem Grown.getOrCreate {w : World} (i : Loose w) (o : Ptr) {k : Cat} (n : Str) (t : TypeId) (look : World → Res (Option Ptr))
    (stored : World → Ptr → World)
    (hs : ∀ w1 p, (stored w1 p).cls = w1.cls ∧ (stored w1 p).kind = w1.kind ∧
      ((stored w1 p).metaClass = w1.metaClass ∨ (w.metaClass t = none ∧ (stored w1 p).metaClass = upd w1.metaClass t (some p)))) :
    Grown w (w.getOrCreate o k n t look stored).1 := by
  have hn : ∀ p, w.kind p = some .cls → p ≠ w.next := fun p hp => by have := i.kind_lt p _ hp; omega
  unfold World.getOrCreate
  split
  · dsimp only
    split
    · obtain ⟨h1, h2, h3⟩ := hs ((w.alloc k n o t).addItem o k ⟨w.next, n⟩).1 w.next
      have e1 : ((w.alloc k n o t).addItem o k ⟨w.next, n⟩).1.cls = upd w.cls w.next ⟨t, [], []⟩ := rfl
      have e2 : ((w.alloc k n o t).addItem o k ⟨w.next, n⟩).1.kind = upd w.kind w.next (some k) := rfl
      have e3 : ((w.alloc k n o t).addItem o k ⟨w.next, n⟩).1.metaClass = w.metaClass := rfl
      rw [e1] at h1; rw [e2] at h2; rw [e3] at h3
      refine ⟨fun p hp => ?_, fun p hp => ?_, fun t' p hp => ?_, fun t' p hp => ?_⟩
      · rw [h1, upd_ne _ _ (hn p hp)]
      · rw [h2] at hp
        rw [h1]
        by_cases e : p = w.next
        · subst e; rw [upd_same]; exact .inr ⟨rfl, rfl⟩
        · rw [upd_ne _ _ e] at hp; exact .inl hp
      · rcases h3 with h3 | ⟨hm, h3⟩ <;> rw [h3]
        · exact hp
        · rw [upd_ne]
          · exact hp
          · rintro rfl; rw [hm] at hp; cases hp
      · rcases h3 with h3 | ⟨hm, h3⟩ <;> rw [h3] at hp
        · exact .inl hp
        · by_cases e : t' = t
          · subst e
            rw [upd_same] at hp
            cases hp
            exact .inr (by rw [h1, upd_same])
          · rw [upd_ne _ _ e] at hp; exact .inl hp
    · refine ⟨fun p hp => ?_, fun p hp => ?_, fun t' p hp => hp, fun t' p hp => .inl hp⟩
      · show upd w.cls w.next _ p = w.cls p
        rw [upd_ne _ _ (hn p hp)]
      · simp only [free, addItem, alloc] at hp
        by_cases e : p = w.next
        · subst e; rw [upd_same] at hp; cases hp
        · rw [upd_ne _ _ e, upd_ne _ _ e] at hp; exact .inl hp
  · exact .refl w

/-- a call that declares no base class -/
theorem Grown.step {w : World} (i : Loose w) (op : Op) (h : ∀ p t c, op ≠ .addBase p t c) : Grown w (w.step op).1 := by
  have ks : ∀ (w1 : World) (p : Ptr), ((fun (w : World) (_ : Ptr) => w) w1 p).cls = w1.cls ∧ ((fun (w : World) (_ : Ptr) => w) w1 p).kind = w1.kind ∧
      (((fun (w : World) (_ : Ptr) => w) w1 p).metaClass = w1.metaClass ∨
        (w.metaClass 0 = none ∧ ((fun (w : World) (_ : Ptr) => w) w1 p).metaClass = upd w1.metaClass 0 (some p))) :=
    fun _ _ => ⟨rfl, rfl, .inl rfl⟩
  cases op with
  | registerType t =>
    simp only [World.step]
    split
    · exact .refl w
    · exact ⟨fun _ _ => rfl, fun _ h => .inl h, fun _ _ h => h, fun _ _ h => .inl h⟩
  | createNamespace o n => exact .getOrCreate i _ _ _ _ _ ks
  | createEnum o n => exact .getOrCreate i _ _ _ _ _ ks
  | createMethod o n b =>
    simp only [World.step, createMethod]
    split
    · split
      · exact .refl w
      · exact .getOrCreate i _ _ _ _ _ ks
    · exact .refl w
  | createProperty o n b =>
    simp only [World.step, createProperty]
    split
    · split
      · exact .refl w
      · exact .getOrCreate i _ _ _ _ _ ks
    · exact .refl w
  | createConstructor o n b =>
    simp only [World.step, createConstructor]
    split
    · split
      · exact .refl w
      · exact .getOrCreate i _ _ _ _ _ ks
    · exact .refl w
  | createClass o n t =>
    simp only [World.step, createClass]
    split
    · split
      · exact .refl w
      · split
        · exact .refl w
        · rename_i hm
          exact .getOrCreate i _ _ _ _ _ fun _ _ => ⟨rfl, rfl, .inr ⟨by simpa using hm, rfl⟩⟩
    · exact .refl w
  | addBase p t c => exact absurd rfl (h p t c)

/-- what a declaration that is not refused does, also that of a class as its own base -/
theorem addBase_cls {w : World} (i : Loose w) (hl : Listed w) {this base : Ptr} {t : TypeId} (hk : w.kind this = some .cls)
    (hb : w.find t = some base) (c : Caster) :
    let r := w.step (.addBase this t c)
    r.2 = .val none ∧ r.1.kind = w.kind ∧ r.1.metaClass = w.metaClass ∧ r.1.valid = w.valid ∧
    ∀ p, (r.1.cls p).typeId = (w.cls p).typeId ∧
      (r.1.cls p).bases = (if p = this then basesAdd (w.cls p).bases t c else (w.cls p).bases) ∧
      (r.1.cls p).derived = (if p = base then derivedAdd (w.cls p).derived (w.cls this).typeId else (w.cls p).derived) := by
  have hv : w.valid t = true ∧ w.metaClass t = some base := by
    unfold World.find at hb
    split at hb
    · exact ⟨‹_›, hb⟩
    · cases hb
  have hm := hl this hk
  have hmv := (i.mc _ _ hm).1
  simp only [World.step, hk, if_true, addBaseClass, hv.1, hv.2, addDerivedClass, Bool.not_true, Bool.false_eq_true, if_false, upd_same,
      hmv, hm]
  refine ⟨trivial, trivial, trivial, trivial, fun p => ?_⟩
  by_cases e1 : p = base <;> by_cases e2 : p = this
  · subst e1; subst e2; simp
  · subst e1; simp [upd_ne _ _ e2, e2]
  · subst e2; simp [upd_ne _ _ e1, e1]
  · simp [upd_ne _ _ e1, upd_ne _ _ e2, e1, e2]

theorem addBase_refused {w : World} {this : Ptr} {t : TypeId} (c : Caster)
    (h : w.kind this ≠ some .cls ∨ w.find t = none) : (w.step (.addBase this t c)).1 = w := by
  simp only [World.step]
  split
  · rename_i hk
    have hb := h.resolve_left (fun h => h hk)
    unfold World.find at hb
    unfold addBaseClass
    split at hb
    · rename_i hv
      simp [hv, hb]
    · rename_i hv
      simp [hv]
  · rfl

theorem Links.addBase {w : World} (i : Loose w) (hl : Listed w) (h : Links w) {this base : Ptr} {t : TypeId} (hk : w.kind this = some .cls)
    (hb : w.find t = some base) (c : Caster) : Links (w.step (.addBase this t c)).1 := by
  obtain ⟨-, e1, e2, -, e3⟩ := addBase_cls i hl hk hb c
  generalize (w.step (.addBase this t c)).1 = W at *
  have hm : w.metaClass t = some base := by
    unfold World.find at hb
    split at hb
    · exact hb
    · cases hb
  have hbt := h.tid _ _ hm
  have dmono : ∀ p s, s ∈ (w.cls p).derived → s ∈ (W.cls p).derived := by
    intro p s hs
    rw [(e3 p).2.2]
    split
    · exact mem_derivedAdd.2 (.inl hs)
    · exact hs
  have bmono : ∀ p s, s ∈ (w.cls p).bases.map (·.1) → s ∈ (W.cls p).bases.map (·.1) := by
    intro p s hs
    rw [(e3 p).2.1]
    split
    · exact fst_mem_basesAdd.2 (.inl hs)
    · exact hs
  refine ⟨fun t' p e => ?_, fun p hp x hx => ?_, fun p hp s hs => ?_, fun p hp => ?_, fun p hp => ?_⟩
  · rw [e2] at e; rw [(e3 p).1]; exact h.tid t' p e
  · rw [e1] at hp
    rw [(e3 p).2.1] at hx
    rw [(e3 p).1, e2]
    have old : x ∈ (w.cls p).bases → ∃ b, w.metaClass x.1 = some b ∧ (w.cls p).typeId ∈ (W.cls b).derived := fun hx => by
      obtain ⟨b, h1, h2⟩ := h.bases p hp x hx
      exact ⟨b, h1, dmono _ _ h2⟩
    split at hx
    · rename_i e
      rcases mem_basesAdd.1 hx with hx | ⟨rfl, _⟩
      · exact old hx
      · refine ⟨base, hm, ?_⟩
        rw [(e3 base).2.2, if_pos rfl, e]
        exact mem_derivedAdd.2 (.inr rfl)
    · exact old hx
  · rw [e1] at hp
    rw [(e3 p).2.2] at hs
    rw [(e3 p).1, e2]
    have old : s ∈ (w.cls p).derived → ∃ d, w.metaClass s = some d ∧ (w.cls p).typeId ∈ (W.cls d).bases.map (·.1) := fun hs => by
      obtain ⟨b, h1, h2⟩ := h.derived p hp s hs
      exact ⟨b, h1, bmono _ _ h2⟩
    split at hs
    · rename_i e
      rcases mem_derivedAdd.1 hs with hs | rfl
      · exact old hs
      · refine ⟨this, hl this hk, ?_⟩
        rw [(e3 this).2.1, if_pos rfl, e, hbt]
        exact fst_mem_basesAdd.2 (.inr rfl)
    · exact old hs
  · rw [e1] at hp
    rw [(e3 p).2.1]
    split
    · exact nodup_basesAdd (h.bnodup p hp)
    · exact h.bnodup p hp
  · rw [e1] at hp
    rw [(e3 p).2.2]
    split
    · exact nodup_derivedAdd (h.dnodup p hp)
    · exact h.dnodup p hp

theorem Links.step {w : World} (i : Loose w) (hl : Listed w) (h : Links w) (op : Op) : Links (w.step op).1 := by
  by_cases ho : ∃ p t c, op = .addBase p t c
  · obtain ⟨p, t, c, rfl⟩ := ho
    by_cases hk : w.kind p = some .cls
    · cases hb : w.find t with
      | some b => exact h.addBase i hl hk hb c
      | none => rw [addBase_refused c (.inr hb)]; exact h
    · rw [addBase_refused c (.inl hk)]; exact h
  · exact h.grown i (.step i op fun p t c e => ho ⟨p, t, c, e⟩)

theorem Links.calls (ops : List Op) : Links (afterCalls ops) := by
  unfold afterCalls
  have : ∀ (ops : List Op) (w : World), Loose w → Listed w → Links w → Links (ops.foldl (fun w op => (w.step op).1) w) := by
    intro ops
    induction ops with
    | nil => exact fun w _ _ i => i
    | cons op ops ih => exact fun w i l h => ih _ (i.step op) (l.step op) (h.step i l op)
  have hk : ∀ p, ¬ World.init.kind p = some .cls := fun p h => by
    simp only [World.init] at h
    split at h <;> cases h
  exact this ops _ .init (fun p h => absurd h (hk p)) ⟨(fun t p h => nomatch h), fun p h => absurd h (hk p), fun p h => absurd h (hk p),
    fun p h => absurd h (hk p), fun p h => absurd h (hk p)⟩

end Rtti.World
