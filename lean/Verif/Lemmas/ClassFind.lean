import Verif.Model.ClassFind
import Verif.Lemmas.Registry
import Verif.Lemmas.Links
import Verif.Lemmas.Decay
set_option autoImplicit false
namespace Rtti
open Spec
namespace Reg

/-- what holders and descriptions say about texts -/
structure Texts (nm : RType → Str) (r : Reg) : Prop where
  held : ∀ T k, r.holders T = some k → r.names (nm T) = some k
  from_ : ∀ k i, r.info k = some i → ∃ T, r.holders T = some k ∧ nm T = i.name ∧ i.desc = describe T

theorem addTypeInfo_texts {r : Reg} {n : Str} (d : Desc) (c : Nat) (hn : n ≠ []) :
    (r.addTypeInfo n d c).1.names n = some (r.addTypeInfo n d c).2 ∧
    ((r.addTypeInfo n d c).1.info = r.info ∨
      ∃ i : Info, i.name = n ∧ i.desc = d ∧ (r.addTypeInfo n d c).1.info = upd r.info (r.addTypeInfo n d c).2 (some i)) := by
  unfold addTypeInfo
  rw [if_neg hn]
  split
  · rename_i k hk
    exact ⟨hk, .inl rfl⟩
  · exact ⟨by simp [upd], .inr ⟨_, rfl, rfl, rfl⟩⟩

theorem initHolder_texts {nm : RType → Str} (h0 : ∀ T, nm T ≠ []) {r : Reg} (h : r.Ok false) (t : r.Texts nm) {T : RType} {c : Nat}
    (hT : r.holders T = none) (hc : r.Good c) (hv : isVoid T = false) : (r.initHolder nm T c).1.Texts nm := by
  have hg := (initHolder_ok (nm := nm) h hv hT hc).2.1
  have hh := (initHolder_ok (nm := nm) h hv hT hc).2.2.2
  have hd := (h.phases rfl).1
  have e : r.registerMetaType (nm T) (describe T) c = r.touch.addTypeInfo (nm T) (describe T) c := by
    rw [registerMetaType_eq, if_neg hd]
  obtain ⟨h1, h2⟩ := addTypeInfo_texts (r := r.touch) (n := nm T) (describe T) c (h0 T)
  have e1 : (r.initHolder nm T c).1.names = (r.touch.addTypeInfo (nm T) (describe T) c).1.names := by unfold initHolder; rw [e]
  have e2 : (r.initHolder nm T c).1.info = (r.touch.addTypeInfo (nm T) (describe T) c).1.info := by unfold initHolder; rw [e]
  have e3 : (r.initHolder nm T c).2 = (r.touch.addTypeInfo (nm T) (describe T) c).2 := by unfold initHolder; rw [e]
  refine ⟨fun S k hs => ?_, fun k i hi => ?_⟩
  · rw [hh] at hs
    by_cases hS : S = T
    · subst hS
      simp [upd] at hs
      subst hs
      rw [e1, e3]; exact h1
    · simp [upd, hS] at hs
      exact hg.names _ _ (t.held S k hs)
  · rw [e2] at hi
    have old : r.info k = some i → ∃ T', (r.initHolder nm T c).1.holders T' = some k ∧ nm T' = i.name ∧ i.desc = describe T' := by
      intro hi
      obtain ⟨T', a, b, c'⟩ := t.from_ k i hi
      exact ⟨T', hg.holders _ _ a, b, c'⟩
    rcases h2 with h2 | ⟨j, hj, hj', h2⟩
    · rw [h2, touch_info] at hi
      exact old hi
    · rw [h2, touch_info] at hi
      by_cases hk : k = (r.touch.addTypeInfo (nm T) (describe T) c).2
      · rw [hk] at hi
        simp [upd] at hi
        subst hi
        refine ⟨T, ?_, hj.symm, hj'⟩
        rw [hh, hk, e3]; simp [upd]
      · simp [upd, hk] at hi
        exact old hi

theorem metaTypeId_texts {nm : RType → Str} (h0 : ∀ T, nm T ≠ []) {r : Reg} (h : r.Ok false) (t : r.Texts nm) (T : RType) :
    (r.metaTypeId nm T).1.Texts nm := by
  unfold metaTypeId
  split
  · exact t
  · rename_i hv
    have hv : isVoid T = false := by simpa using hv
    split
    · exact t
    · rename_i hk
      dsimp only
      split
      · exact initHolder_texts h0 h t hk (.inl rfl) hv
      · rename_i hD
        obtain ⟨h1, h2⟩ := metaTypeIdDecayed_ok (nm := nm) (T := ⟨.none, T.t.fullDecay⟩) h
        have hk' := (metaTypeIdDecayed_holders (nm := nm) (r := r) hD).trans hk
        have t' : (r.metaTypeIdDecayed nm ⟨.none, T.t.fullDecay⟩).1.Texts nm := by
          unfold metaTypeIdDecayed
          split
          · exact t
          · rename_i hv'
            split
            · exact t
            · rename_i hkD
              exact initHolder_texts h0 h t hkD (.inl rfl) (by simpa using hv')
        generalize r.metaTypeIdDecayed nm ⟨.none, T.t.fullDecay⟩ = p at *
        exact initHolder_texts h0 h1 t' hk' h2.good hv

/-- the decayed type -/
def decT (T : RType) : RType := ⟨.none, T.t.fullDecay⟩

theorem decT_decT (T : RType) : decT (decT T) = decT T := by
  unfold decT; rw [fullDecay_ref_free]

/-- the decay ids recorded, if texts tell types apart -/
structure Decays (P : RType → Prop) (r : Reg) : Prop where
  used : ∀ T k, r.holders T = some k → P T
  decay : ∀ T k i, r.holders T = some k → r.info k = some i → isVoid (decT T) = false → r.holders (decT T) = some i.decay

variable {P : RType → Prop}

/-- if texts tell types apart, what is recorded for a type is its own description -/
theorem Texts.own {nm : RType → Str} (hinj : ∀ S T, P S → P T → nm S = nm T → S = T) {r : Reg} {sd : Bool} (h : r.Ok sd) (t : r.Texts nm)
    (u : ∀ T k, r.holders T = some k → P T) {T : RType} {k : Nat}
    (hT : r.holders T = some k) : ∃ i, r.info k = some i ∧ i.name = nm T ∧ i.desc = describe T := by
  obtain ⟨i, hi, hn⟩ := h.names _ _ (t.held T k hT)
  obtain ⟨T', b, e, d⟩ := t.from_ k i hi
  cases hinj T' T (u _ _ b) (u _ _ hT) (e.trans hn)
  exact ⟨i, hi, hn, d⟩

theorem initHolder_decays {nm : RType → Str} (h0 : ∀ T, nm T ≠ []) (hinj : ∀ S T, P S → P T → nm S = nm T → S = T) {r : Reg} (h : r.Ok false)
    (t : r.Texts nm) (d : r.Decays P) {T : RType} (hP : P T) {c : Nat} (hT : r.holders T = none) (hv : isVoid T = false)
    (hc : (c = 0 ∧ (decT T = T ∨ isVoid (decT T) = true)) ∨ c ≠ 0 ∧ decT T ≠ T ∧ r.holders (decT T) = some c) :
    (r.initHolder nm T c).1.Decays P := by
  have hn : r.names (nm T) = none := by
    cases e : r.names (nm T) with
    | none => rfl
    | some k =>
      obtain ⟨i, hi, e1⟩ := h.names _ _ e
      obtain ⟨T', a, b, -⟩ := t.from_ k i hi
      cases hinj T' T (d.used _ _ a) hP (b.trans e1)
      rw [hT] at a; cases a
  have hd := (h.phases rfl).1
  have e : r.registerMetaType (nm T) (describe T) c = r.touch.addTypeInfo (nm T) (describe T) c := by
    rw [registerMetaType_eq, if_neg hd]
  have hn' : r.touch.names (nm T) = none := by rw [touch_names]; exact hn
  have e2 : (r.initHolder nm T c).2 = r.touch.next := by
    unfold initHolder; rw [e]; unfold addTypeInfo; rw [if_neg (h0 T), hn']
  have e3 : (r.initHolder nm T c).1.info = upd r.info r.touch.next (some ⟨nm T, describe T, if c = 0 then r.touch.next else c⟩) := by
    unfold initHolder; rw [e]; unfold addTypeInfo; rw [if_neg (h0 T), hn']; dsimp only; rw [touch_info]
  have e4 : (r.initHolder nm T c).1.holders = upd r.holders T (some r.touch.next) := by
    unfold initHolder; rw [e]; unfold addTypeInfo; rw [if_neg (h0 T), hn']; dsimp only; rw [touch_holders]
  have hfresh : ∀ S k, r.holders S = some k → k ≠ r.touch.next := by
    rintro S k hS rfl
    obtain ⟨i, hi, -⟩ := t.own hinj h d.used hS
    have := (h.info _ i hi).2.2.1
    rw [touch_next] at this
    exact absurd this (Nat.lt_irrefl _)
  refine ⟨fun S k hS => ?_, ?_⟩
  · rw [e4] at hS
    by_cases hST : S = T
    · rw [hST]; exact hP
    · simp only [upd, if_neg hST] at hS
      exact d.used S k hS
  intro S k i hS hi hw
  rw [e4] at hS ⊢
  rw [e3] at hi
  by_cases hST : S = T
  · subst hST
    simp only [upd, if_true, Option.some.injEq] at hS
    subst hS
    simp only [upd, if_true, Option.some.injEq] at hi
    subst hi
    dsimp only
    rcases hc with ⟨rfl, hD⟩ | ⟨h1, h2, h3⟩
    · rcases hD with hD | hD
      · rw [hD]; simp [upd]
      · rw [hD] at hw; cases hw
    · rw [if_neg h1]; simp [upd, h2, h3]
  · simp only [upd, if_neg hST] at hS
    have hk := hfresh S k hS
    simp only [upd, if_neg hk] at hi
    have := d.decay S k i hS hi hw
    by_cases hD : decT S = T
    · rw [hD, hT] at this; cases this
    · simp only [upd, if_neg hD]; exact this

theorem metaTypeId_decays {nm : RType → Str} (h0 : ∀ T, nm T ≠ []) (hinj : ∀ S T, P S → P T → nm S = nm T → S = T) {r : Reg} (h : r.Ok false)
    (t : r.Texts nm) (d : r.Decays P) (T : RType) (hP : P T) (hP' : P (decT T)) : (r.metaTypeId nm T).1.Decays P := by
  unfold metaTypeId
  split
  · exact d
  · rename_i hv
    have hv : isVoid T = false := by simpa using hv
    split
    · exact d
    · rename_i hk
      dsimp only
      split
      · rename_i hD
        exact initHolder_decays h0 hinj h t d hP hk hv (.inl ⟨rfl, .inl hD.symm⟩)
      · rename_i hD
        obtain ⟨h1, h2⟩ := metaTypeIdDecayed_ok (nm := nm) (T := ⟨.none, T.t.fullDecay⟩) h
        have hk' := (metaTypeIdDecayed_holders (nm := nm) (r := r) hD).trans hk
        have t' : (r.metaTypeIdDecayed nm (decT T)).1.Texts nm ∧ (r.metaTypeIdDecayed nm (decT T)).1.Decays P := by
          unfold metaTypeIdDecayed
          split
          · exact ⟨t, d⟩
          · rename_i hv'
            split
            · exact ⟨t, d⟩
            · rename_i hkD
              exact ⟨initHolder_texts h0 h t hkD (.inl rfl) (by simpa using hv'),
                initHolder_decays h0 hinj h t d hP' hkD (by simpa using hv') (.inl ⟨rfl, .inl (decT_decT T)⟩)⟩
        refine initHolder_decays h0 hinj h1 t'.1 t'.2 hP hk' hv ?_
        cases hw : isVoid (decT T) with
        | true => exact .inl ⟨h2.void hw, .inr rfl⟩
        | false =>
          have hh := h2.held hw
          refine .inr ⟨?_, fun e => hD e.symm, hh⟩
          obtain ⟨i, hi, -⟩ := t'.1.own hinj h1 t'.2.used hh
          have := (h1.info _ i hi).2.1
          omega

theorem Texts.congr {nm : RType → Str} {r r' : Reg} (h : r'.holders = r.holders ∧ r'.info = r.info ∧ r'.names = r.names) (t : r.Texts nm) : r'.Texts nm := by
  obtain ⟨h1, h2, h3⟩ := h
  exact ⟨by rw [h1, h3]; exact t.held, by rw [h1, h2]; exact t.from_⟩

theorem Decays.congr {r r' : Reg} (h : r'.holders = r.holders ∧ r'.info = r.info ∧ r'.names = r.names) (t : r.Decays P) : r'.Decays P := by
  obtain ⟨h1, h2, h3⟩ := h
  exact ⟨by rw [h1]; exact t.used, by rw [h1, h2]; exact t.decay⟩

theorem withList_frame {A : Type} {r r' : Reg} {a b : Nat} {dflt o : A} {f : Reg → Nat × Nat → Res (Reg × A)}
    (hf : ∀ r k p, f r k = .val p → p.1.holders = r.holders ∧ p.1.info = r.info ∧ p.1.names = r.names)
    (e : r.withList a b dflt f = .val (r', o)) : r'.holders = r.holders ∧ r'.info = r.info ∧ r'.names = r.names := by
  unfold withList at e
  split at e
  · cases e; exact ⟨rfl, rfl, rfl⟩
  have hc : ∀ r1, r.customConverters = some r1 → r1.holders = r.holders ∧ r1.info = r.info ∧ r1.names = r.names := by
    intro r1 h
    unfold customConverters at h
    split at h <;> cases h <;> exact ⟨rfl, rfl, rfl⟩
  split at e
  · cases e; exact ⟨rfl, rfl, rfl⟩
  · rename_i r1 h1
    cases hk : r1.key a b with
    | val k =>
      rw [hk] at e
      obtain ⟨x, y, z⟩ := hf _ _ _ e
      obtain ⟨x', y', z'⟩ := hc _ h1
      exact ⟨x.trans x', y.trans y', z.trans z'⟩
    | _ => rw [hk] at e; cases e

theorem ofId_frame (r : Reg) (a : Nat) : (r.ofId a).1.holders = r.holders ∧ (r.ofId a).1.info = r.info ∧ (r.ofId a).1.names = r.names := by
  unfold ofId customTypes
  cases r.types <;> exact ⟨rfl, rfl, rfl⟩

theorem useSlot_frame (r : Reg) (s : Slot) (fn : Nat) :
    (r.useSlot s fn).holders = r.holders ∧ (r.useSlot s fn).info = r.info ∧ (r.useSlot s fn).names = r.names := by
  unfold useSlot
  split <;> exact ⟨rfl, rfl, rfl⟩

private theorem frame_trans {a b c : Reg} (h : b.holders = a.holders ∧ b.info = a.info ∧ b.names = a.names)
    (h' : c.holders = b.holders ∧ c.info = b.info ∧ c.names = b.names) : c.holders = a.holders ∧ c.info = a.info ∧ c.names = a.names :=
  ⟨h'.1.trans h.1, h'.2.1.trans h.2.1, h'.2.2.trans h.2.2⟩

theorem registerConverter_frame {r r' : Reg} {a b : TypeId} {s : Slot} {o : Bool} (e : r.registerConverter a b s = .val (r', o)) :
    r'.holders = r.holders ∧ r'.info = r.info ∧ r'.names = r.names := by
  unfold registerConverter at e
  refine frame_trans (frame_trans (ofId_frame r a) (ofId_frame _ b)) (withList_frame (fun r k p h => ?_) e)
  split at h <;> cases h <;> exact ⟨rfl, rfl, rfl⟩

theorem unregisterConverter_frame {r r' : Reg} {a b : TypeId} {o : Unit} (e : r.unregisterConverter a b = .val (r', o)) :
    r'.holders = r.holders ∧ r'.info = r.info ∧ r'.names = r.names := by
  unfold unregisterConverter at e
  refine frame_trans (frame_trans (ofId_frame r a) (ofId_frame _ b)) (withList_frame (fun r k p h => ?_) e)
  cases h; exact ⟨rfl, rfl, rfl⟩

/-- registering a converter registers the two decayed types -/
theorem registerT_keeps {nm : RType → Str} (h0 : ∀ T, nm T ≠ []) {r r' : Reg} (h : r.Ok false) {S T : RType} {f fn : Nat} {o : Bool}
    (e : r.registerConverterT nm S T f fn = .val (r', o)) :
    (r.Texts nm → r'.Texts nm) ∧
    (∀ P : RType → Prop, (∀ S T, P S → P T → nm S = nm T → S = T) → P (decT S) → P (decT T) → r.Texts nm → r.Decays P → r'.Decays P) := by
  unfold registerConverterT at e
  dsimp only at e
  have f1 := useSlot_frame r (slotOf S T f) fn
  have h1 := (useSlot_ok (fn := fn) h (h.noDead rfl (slotOf S T f))).1
  generalize r.useSlot (slotOf S T f) fn = r1 at *
  have h2 := (metaTypeId_ok (nm := nm) (T := ⟨.none, S.t.fullDecay⟩) h1).1
  have t2 := fun t => metaTypeId_texts h0 h1 (nm := nm) t ⟨.none, S.t.fullDecay⟩
  have d2 := fun (P : RType → Prop) (hi : ∀ S T, P S → P T → nm S = nm T → S = T) t d => metaTypeId_decays h0 hi h1 t d ⟨.none, S.t.fullDecay⟩
  generalize r1.metaTypeId nm ⟨.none, S.t.fullDecay⟩ = p at *
  have t3 := fun t => metaTypeId_texts h0 h2 (nm := nm) t ⟨.none, T.t.fullDecay⟩
  have d3 := fun (P : RType → Prop) (hi : ∀ S T, P S → P T → nm S = nm T → S = T) t d => metaTypeId_decays h0 hi h2 t d ⟨.none, T.t.fullDecay⟩
  generalize p.1.metaTypeId nm ⟨.none, T.t.fullDecay⟩ = q at *
  have f4 := registerConverter_frame e
  refine ⟨fun t => (t3 (t2 (t.congr f1))).congr f4, fun P hi hS hT t d => (d3 P hi (t2 (t.congr f1)) (d2 P hi (t.congr f1) (d.congr f1) hS ?_) hT ?_).congr f4⟩
  · rw [show decT ⟨.none, S.t.fullDecay⟩ = decT S from decT_decT S]; exact hS
  · rw [show decT ⟨.none, T.t.fullDecay⟩ = decT T from decT_decT T]; exact hT

theorem unregT_keeps {nm : RType → Str} (h0 : ∀ T, nm T ≠ []) {r r' : Reg} (h : r.Ok false) {S T : RType} {o : Unit}
    (e : r.unregisterConverterT nm S T = .val (r', o)) :
    (r.Texts nm → r'.Texts nm) ∧
    (∀ P : RType → Prop, (∀ S T, P S → P T → nm S = nm T → S = T) → P S → P T → P (decT S) → P (decT T) → r.Texts nm → r.Decays P → r'.Decays P) := by
  unfold unregisterConverterT at e
  dsimp only at e
  have h2 := (metaTypeId_ok (nm := nm) (T := S) h).1
  have t2 := fun t => metaTypeId_texts h0 h (nm := nm) t S
  have d2 := fun (P : RType → Prop) (hi : ∀ S T, P S → P T → nm S = nm T → S = T) t d => metaTypeId_decays h0 hi h t d S
  generalize r.metaTypeId nm S = p at *
  have t3 := fun t => metaTypeId_texts h0 h2 (nm := nm) t T
  have d3 := fun (P : RType → Prop) (hi : ∀ S T, P S → P T → nm S = nm T → S = T) t d => metaTypeId_decays h0 hi h2 t d T
  generalize p.1.metaTypeId nm T = q at *
  have f4 := unregisterConverter_frame e
  exact ⟨fun t => (t3 (t2 t)).congr f4, fun P hi hS hT hS' hT' t d => (d3 P hi (t2 t) (d2 P hi t d hS hS') hT hT').congr f4⟩

end Reg

namespace World

theorem getOrCreate_valid (w : World) (o : Ptr) (k : Cat) (n : Str) (t : TypeId) (l : World → Res (Option Ptr)) (st : World → Ptr → World)
    (hs : ∀ w p, (st w p).valid = w.valid) : (w.getOrCreate o k n t l st).1.valid = w.valid := by
  have ha : ∀ i, ((w.alloc k n o t).addItem o k i).1.valid = w.valid := fun i => rfl
  unfold getOrCreate
  dsimp only
  split
  · split
    · rw [hs]; exact ha _
    · exact ha ⟨w.next, n⟩
  all_goals rfl

theorem valid0_step {w : World} (h : w.valid 0 = false) (op : Op) : (w.step op).1.valid 0 = false := by
  cases op with
  | registerType t =>
    simp only [World.step]
    split
    · exact h
    · rename_i ht
      dsimp only
      rw [upd_ne _ _ (Ne.symm ht)]; exact h
  | createNamespace o n => rw [show (w.step (.createNamespace o n)).1.valid = w.valid from getOrCreate_valid _ _ _ _ _ _ _ fun _ _ => rfl]; exact h
  | createEnum o n => rw [show (w.step (.createEnum o n)).1.valid = w.valid from getOrCreate_valid _ _ _ _ _ _ _ fun _ _ => rfl]; exact h
  | createMethod o n b =>
    simp only [World.step, createMethod]
    split
    · split
      · exact h
      · rw [getOrCreate_valid]
        · exact h
        · intros; rfl
    · exact h
  | createProperty o n b =>
    simp only [World.step, createProperty]
    split
    · split
      · exact h
      · rw [getOrCreate_valid]
        · exact h
        · intros; rfl
    · exact h
  | createConstructor o n b =>
    simp only [World.step, createConstructor]
    split
    · split
      · exact h
      · rw [getOrCreate_valid]
        · exact h
        · intros; rfl
    · exact h
  | createClass o n t =>
    simp only [World.step, createClass]
    split
    · split
      · exact h
      · split
        · exact h
        · rw [getOrCreate_valid]
          · exact h
          · intros; rfl
    all_goals exact h
  | addBase d t c =>
    rcases Lazy.step_addBase w d t c with e | e <;> rw [e]
    · exact h
    · rw [(Lazy.addBaseClass_frame w d t c).2.2.2.1]; exact h

theorem keeps_step {w : World} (i : Loose w) (op : Op) {t : TypeId} {p : Ptr} (h : w.metaClass t = some p) : (w.step op).1.metaClass t = some p := by
  cases op with
  | addBase d t' c =>
    rcases Lazy.step_addBase w d t' c with e | e <;> rw [e]
    · exact h
    · rw [(Lazy.addBaseClass_frame w d t' c).2.2.2.2.1]; exact h
  | _ => exact (Grown.step i _ (by intro p t c e; cases e)).keeps t p h

theorem createClass_new {w : World} (i : Loose w) {o p : Ptr} {n : Str} {t : TypeId} (hn : w.getItem o .cls n = .val none)
    (h : (w.createClass o n t).2 = .val (some p)) : (w.createClass o n t).1.metaClass t = some p := by
  have ho : w.isContainer o = true := by
    unfold World.getItem at hn
    split at hn
    · assumption
    · cases hn
  have hne : o ≠ w.next := by
    rintro rfl
    simp only [isContainer, Bool.or_eq_true, beq_iff_eq] at ho
    rcases ho with ho | ho <;> exact absurd (i.kind_lt _ _ ho) (Nat.lt_irrefl _)
  unfold World.createClass at h ⊢
  rw [hn] at h ⊢
  dsimp only at h ⊢
  split at h
  · cases h
  split at h
  · cases h
  rename_i hv hm
  rw [if_neg hv, if_neg hm]
  unfold World.getOrCreate at h ⊢
  dsimp only at h ⊢
  rw [hn] at h ⊢
  dsimp only at h ⊢
  split at h
  · rename_i ha
    rw [if_pos ha]
    cases h
    exact upd_same _ _ _
  · rename_i ha
    -- refused: what is found now was there before
    have hc : (((w.alloc .cls n o t).addItem o .cls ⟨w.next, n⟩).1.cont o .cls) = w.cont o .cls := by
      have hu : ∀ (l : ItemList) (x : Item), (l.add (some x)).2 = false → (l.add (some x)).1 = l := by
        intro l x hx
        unfold ItemList.add at hx ⊢
        dsimp only at hx ⊢
        split at hx
        · cases hx
        · rename_i hq; rw [if_neg hq]
      simp only [World.addItem, World.alloc, Container.addItem, upd_ne _ _ hne] at ha ⊢
      rw [upd_same]
      simp only
      exact hu _ _ (by simpa using ha)
    replace hc : (((w.alloc .cls n o t).addItem o .cls ⟨w.next, n⟩).1.free w.next).cont o .cls = w.cont o .cls := hc
    generalize ((w.alloc .cls n o t).addItem o .cls ⟨w.next, n⟩).1.free w.next = w2 at h hc
    unfold World.getItem at h
    split at h
    · rw [hc] at h
      simp only [World.getItem, ho, if_true] at hn
      rw [hn] at h
      cases h
    · cases h

end World

namespace ClassFind

structure Inv (nm : RType → Str) (s : Prog) : Prop where
  ok : s.reg.Ok false
  texts : s.reg.Texts nm
  loose : s.world.Loose
  listed : s.world.Listed
  links : s.world.Links
  valid0 : s.world.valid 0 = false

theorem Inv.init (nm : RType → Str) : Inv nm init :=
  ⟨.init, ⟨nofun, nofun⟩, World.Loose.calls [], World.Listed.calls [], World.Links.calls [], rfl⟩

variable {nm : RType → Str}

theorem Inv.world {s : Prog} (i : Inv nm s) (op : World.Op) : Inv nm ⟨s.reg, (s.world.step op).1⟩ :=
  ⟨i.ok, i.texts, i.loose.step op, i.listed.step op, i.links.step i.loose i.listed op, World.valid0_step i.valid0 op⟩

theorem Inv.use (h0 : ∀ T, nm T ≠ []) {s : Prog} (i : Inv nm s) (T : RType) : Inv nm (s.use nm T).1 := by
  have := i.world (.registerType (s.reg.metaTypeId nm T).2)
  exact ⟨(Reg.metaTypeId_ok i.ok).1, Reg.metaTypeId_texts h0 i.ok i.texts T, this.loose, this.listed, this.links, this.valid0⟩

theorem Inv.step (h0 : ∀ T, nm T ≠ []) {s : Prog} (i : Inv nm s) (c : Call) : Inv nm (s.step nm c).1 := by
  cases c with
  | idOf T => exact i.use h0 T
  | cls o n T => exact (i.use h0 T).world _
  | base d T c => exact (i.use h0 T).world _
  | conv S T f fn =>
    obtain ⟨r', o, e, h1, -⟩ := Reg.registerT_ok (nm := nm) (S := S) (T := T) (f := f) (fn := fn) i.ok (i.ok.noDead rfl _)
    simp only [Prog.step, e]
    exact ⟨h1, (Reg.registerT_keeps h0 i.ok e).1 i.texts, i.loose, i.listed, i.links, i.valid0⟩
  | unconv S T =>
    obtain ⟨r', e, h1, -⟩ := Reg.unregT_ok (nm := nm) (S := S) (T := T) i.ok
    simp only [Prog.step, e]
    exact ⟨h1, (Reg.unregT_keeps h0 i.ok e).1 i.texts, i.loose, i.listed, i.links, i.valid0⟩
  | other op => cases op <;> first | exact i | exact i.world _

theorem Inv.run (h0 : ∀ T, nm T ≠ []) (cs : List Call) : ∀ {s : Prog}, Inv nm s → Inv nm (s.run nm cs) := by
  induction cs with
  | nil => intro s i; exact i
  | cons c cs ih => intro s i; exact ih (i.step h0 c)

/-- what a call keeps -/
structure Keeps (s s' : Prog) : Prop where
  reg : Reg.Grows s.reg s'.reg
  cls : ∀ t p, s.world.metaClass t = some p → s'.world.metaClass t = some p

theorem Keeps.refl (s : Prog) : Keeps s s := ⟨.refl _, fun _ _ => id⟩

theorem Keeps.trans {a b c : Prog} (h : Keeps a b) (h' : Keeps b c) : Keeps a c :=
  ⟨h.reg.trans h'.reg, fun t p e => h'.cls t p (h.cls t p e)⟩

theorem Keeps.world {s : Prog} (i : Inv nm s) (op : World.Op) : Keeps s ⟨s.reg, (s.world.step op).1⟩ :=
  ⟨.refl _, fun _ _ => World.keeps_step i.loose op⟩

theorem Keeps.use {s : Prog} (i : Inv nm s) (T : RType) : Keeps s (s.use nm T).1 :=
  ⟨(Reg.metaTypeId_ok i.ok).2.grows, fun _ _ => World.keeps_step i.loose _⟩

theorem Keeps.step (h0 : ∀ T, nm T ≠ []) {s : Prog} (i : Inv nm s) (c : Call) : Keeps s (s.step nm c).1 := by
  cases c with
  | idOf T => exact .use i T
  | cls o n T => exact (Keeps.use i T).trans (.world (i.use h0 T) _)
  | base d T c => exact (Keeps.use i T).trans (.world (i.use h0 T) _)
  | conv S T f fn =>
    obtain ⟨r', o, e, -, g⟩ := Reg.registerT_ok (nm := nm) (S := S) (T := T) (f := f) (fn := fn) i.ok (i.ok.noDead rfl _)
    simp only [Prog.step, e]
    exact ⟨g, fun _ _ => id⟩
  | unconv S T =>
    obtain ⟨r', e, -, g, -⟩ := Reg.unregT_ok (nm := nm) (S := S) (T := T) i.ok
    simp only [Prog.step, e]
    exact ⟨g, fun _ _ => id⟩
  | other op => cases op <;> first | exact .refl _ | exact .world i _

theorem Keeps.run (h0 : ∀ T, nm T ≠ []) (cs : List Call) : ∀ {s : Prog}, Inv nm s → Keeps s (s.run nm cs) := by
  induction cs with
  | nil => intro s _; exact .refl s
  | cons c cs ih => intro s i; exact (Keeps.step h0 i c).trans (ih (i.step h0 c))

theorem run_append (nm : RType → Str) (a b : List Call) : ∀ s : Prog, s.run nm (a ++ b) = (s.run nm a).run nm b := by
  induction a with
  | nil => intro s; rfl
  | cons c a ih => intro s; exact ih _

theorem Inv.findName {s : Prog} (i : Inv nm s) (n : Str) :
    s.findName n = if n = [] then none else (s.reg.names n).bind s.world.metaClass := by
  have hd := (i.ok.phases rfl).1
  unfold Prog.findName Prog.metaClassOf
  rw [Reg.ofName_eq]
  simp only [Reg.hd, hd, if_false, Reg.getTypeInfo]
  by_cases hn : n = []
  · simp [hn]
  · rw [if_neg hn, if_neg hn]
    cases hk : s.reg.names n with
    | none => rfl
    | some k =>
      obtain ⟨j, hj, -⟩ := i.ok.names n k hk
      have := (i.ok.info k j hj).2.1
      have h : k ≠ 0 := by omega
      simp [h]

theorem Inv.findId {s : Prog} (i : Inv nm s) {k : Nat} (hk : k ≠ 0) : s.findId k = s.world.metaClass k := by
  have hd := (i.ok.phases rfl).1
  unfold Prog.findId Prog.metaClassOf
  rw [Reg.ofId_eq]
  simp [Reg.hd, hd, hk]

/-- the id of a type is the one registered under its text -/
theorem Inv.idNow {s : Prog} (h0 : ∀ T, nm T ≠ []) (i : Inv nm s) (T : RType) (hv : Reg.isVoid T = false) :
    (s.use nm T).1.reg.names (nm T) = some (s.idNow nm T) ∧ s.idNow nm T ≠ 0 := by
  have h := (Reg.metaTypeId_ok (nm := nm) (T := T) i.ok).2.held hv
  have t := (Reg.metaTypeId_texts h0 i.ok i.texts T).held T _ h
  refine ⟨t, ?_⟩
  obtain ⟨j, hj, -⟩ := (Reg.metaTypeId_ok (nm := nm) (T := T) i.ok).1.names _ _ t
  have := ((Reg.metaTypeId_ok (nm := nm) (T := T) i.ok).1.info _ j hj).2.1
  unfold Prog.idNow
  omega

theorem Inv.decays {P : RType → Prop} (h0 : ∀ T, nm T ≠ []) (hinj : ∀ S T, P S → P T → nm S = nm T → S = T) (cs : List Call) :
    ∀ {s : Prog}, (∀ c ∈ cs, ∀ T ∈ c.types, P T ∧ P (Reg.decT T)) → Inv nm s → s.reg.Decays P → (s.run nm cs).reg.Decays P := by
  induction cs with
  | nil => intro s _ _ d; exact d
  | cons c cs ih =>
    intro s hp i d
    refine ih (fun c hc => hp c (List.mem_cons_of_mem _ hc)) (i.step h0 c) ?_
    have hc := hp c List.mem_cons_self
    cases c with
    | idOf T => exact Reg.metaTypeId_decays h0 hinj i.ok i.texts d T (hc T List.mem_cons_self).1 (hc T List.mem_cons_self).2
    | cls o n T => exact Reg.metaTypeId_decays h0 hinj i.ok i.texts d T (hc T List.mem_cons_self).1 (hc T List.mem_cons_self).2
    | base d' T c => exact Reg.metaTypeId_decays h0 hinj i.ok i.texts d T (hc T List.mem_cons_self).1 (hc T List.mem_cons_self).2
    | conv S T f fn =>
      obtain ⟨r', o, e, -⟩ := Reg.registerT_ok (nm := nm) (S := S) (T := T) (f := f) (fn := fn) i.ok (i.ok.noDead rfl _)
      simp only [Prog.step, e]
      exact (Reg.registerT_keeps h0 i.ok e).2 P hinj (hc _ List.mem_cons_self).1 (hc _ (List.mem_cons_of_mem _ List.mem_cons_self)).1 i.texts d
    | unconv S T =>
      obtain ⟨r', e, -⟩ := Reg.unregT_ok (nm := nm) (S := S) (T := T) i.ok
      simp only [Prog.step, e]
      have a := hc S List.mem_cons_self
      have b := hc T (List.mem_cons_of_mem _ List.mem_cons_self)
      exact (Reg.unregT_keeps h0 i.ok e).2 P hinj a.1 b.1 a.2 b.2 i.texts d
    | other op => cases op <;> exact d

/-- what was asked for is held -/
theorem Inv.asked (h0 : ∀ T, nm T ≠ []) {s : Prog} (i : Inv nm s) (S T U : RType) (hU : U = S ∨ U = T) (hv : Reg.isVoid U = false) :
    ∃ k, (s.run nm [.idOf S, .idOf T]).reg.holders U = some k ∧ (s.run nm [.idOf S, .idOf T]).idNow nm U = k := by
  have key : ∃ k, (s.run nm [.idOf S, .idOf T]).reg.holders U = some k := by
    have e2 : s.run nm [.idOf S, .idOf T] = ((s.use nm S).1.use nm T).1 := rfl
    rw [e2]
    rcases hU with rfl | rfl
    · have h1 := (Reg.metaTypeId_ok (nm := nm) (T := U) i.ok).2.held hv
      exact ⟨_, (Keeps.use (i.use h0 U) T).reg.holders _ _ h1⟩
    · exact ⟨_, (Reg.metaTypeId_ok (nm := nm) (T := U) (i.use h0 S).ok).2.held hv⟩
  obtain ⟨k, hk⟩ := key
  refine ⟨k, hk, ?_⟩
  unfold Prog.idNow Reg.metaTypeId
  rw [if_neg (by rw [hv]; nofun), hk]

end ClassFind
end Rtti
