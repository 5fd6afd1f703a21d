import Verif.Lemmas.World
namespace Rtti
open Spec
namespace World

/-- the world after a refused addition -/
def refusedWorld (w : World) (o : Ptr) (k : Cat) (n : Str) (t : TypeId) : World :=
  ((w.alloc k n o t).addItem o k ⟨w.next, n⟩).1.free w.next

theorem getOrCreate_cases (w : World) (o : Ptr) (k : Cat) (n : Str) (t : TypeId)
    (look : World → Res (Option Ptr)) (stored : World → Ptr → World)
    (hst : stored ((w.alloc k n o t).addItem o k ⟨w.next, n⟩).1 w.next = w.created o k n t) :
    (look w ≠ .val none ∧ w.getOrCreate o k n t look stored = (w, look w)) ∨
    (look w = .val none ∧ ((w.alloc k n o t).addItem o k ⟨w.next, n⟩).2 = true ∧
      w.getOrCreate o k n t look stored = (w.created o k n t, .val (some w.next))) ∨
    (look w = .val none ∧ ((w.alloc k n o t).addItem o k ⟨w.next, n⟩).2 = false ∧
      w.getOrCreate o k n t look stored = (w.refusedWorld o k n t, look (w.refusedWorld o k n t))) := by
  unfold getOrCreate
  cases h : look w with
  | val a =>
    cases a with
    | some p => left; simp
    | none =>
      right
      simp only [true_and]
      cases hb : ((w.alloc k n o t).addItem o k ⟨w.next, n⟩).2 with
      | true => left; simp [hst]
      | false => right; simp [refusedWorld]
  | throw e => left; simp
  | ub => left; simp
  | diverge => left; simp

theorem stored_id (w : World) (o : Ptr) {k : Cat} (hk : k ≠ .cls) (n : Str) (t : TypeId) :
    (fun (w : World) (_ : Ptr) => w) ((w.alloc k n o t).addItem o k ⟨w.next, n⟩).1 w.next
      = w.created o k n t := by
  simp [created, hk]

theorem stored_cls (w : World) (o : Ptr) (n : Str) (t : TypeId) :
    (fun (w : World) (p : Ptr) => { w with metaClass := upd w.metaClass t (some p) })
      ((w.alloc .cls n o t).addItem o .cls ⟨w.next, n⟩).1 w.next
      = w.created o .cls n t := by
  simp [created]

theorem Inv.getOrCreate {rank} {w : World} (i : Inv rank w) (o : Ptr) (ho : w.isContainer o = true)
    (k : Cat) (n : Str) (t : TypeId) (look : World → Res (Option Ptr))
    (stored : World → Ptr → World)
    (hst : stored ((w.alloc k n o t).addItem o k ⟨w.next, n⟩).1 w.next = w.created o k n t)
    (hc : k = .cls → w.valid t = true ∧ w.metaClass t = none) :
    Inv rank (w.getOrCreate o k n t look stored).1 := by
  rcases getOrCreate_cases w o k n t look stored hst with ⟨_, h⟩ | ⟨_, h1, h⟩ | ⟨_, h1, h⟩
  · rw [h]; exact i
  · rw [h]; exact i.created o ho k n t h1 hc
  · rw [h]; exact (i.refused o ho k n t h1).1

theorem getItem_ub {w : World} {o : Ptr} {k : Cat} {n : Str} (h : w.isContainer o = false) :
    w.getItem o k n = .ub := by simp [getItem, h]

/-- effect of a base declaration that is not refused -/
theorem addBaseClass_eq {rank} {w : World} (i : Inv rank w) (this : Ptr) (hk : w.kind this = some .cls)
    (t : TypeId) (c : Caster) :
    (w.valid t = false ∧ w.addBaseClass this t c = (w, .throw .invalidTypeId)) ∨
    (w.valid t = true ∧ w.metaClass t = none ∧ w.addBaseClass this t c = (w, .throw .unregisteredClass)) ∨
    (∃ base, w.valid t = true ∧ w.metaClass t = some base ∧
      (w.addBaseClass this t c).2 = .val () ∧
      (w.addBaseClass this t c).1 = { w with
        cls := (let d : ClassData := { w.cls this with bases := basesAdd (w.cls this).bases t c }
                let cls1 := upd w.cls this d
                upd cls1 base { cls1 base with
                  derived := derivedAdd (cls1 base).derived (w.cls this).typeId }) }) := by
  unfold addBaseClass
  cases hv : w.valid t with
  | false => left; simp
  | true =>
    right
    cases hm : w.metaClass t with
    | none => left; simp
    | some base =>
      right
      have h1 := i.cm this hk
      have h2 := (i.mc _ _ h1).1
      refine ⟨base, ?_⟩
      simp [addDerivedClass, h1, h2]

theorem mem_basesAdd {l : List (TypeId × Caster)} {t : TypeId} {c : Caster} {x : TypeId × Caster} :
    x ∈ basesAdd l t c ↔ x ∈ l ∨ (x = (t, c) ∧ t ∉ l.map (·.1)) := by
  unfold basesAdd
  have : (l.any fun it => t == it.1) = true ↔ t ∈ l.map (·.1) := by
    simp only [List.any_eq_true, List.mem_map, beq_iff_eq]
    constructor
    · rintro ⟨x, h, e⟩; exact ⟨x, h, e.symm⟩
    · rintro ⟨x, h, e⟩; exact ⟨x, h, e.symm⟩
  split
  · rename_i h; rw [this] at h; simp only [h, not_true, and_false, or_false]
  · rename_i h; rw [this] at h
    simp only [h, not_false_eq_true, and_true, List.mem_append, List.mem_singleton]

theorem fst_mem_basesAdd {l : List (TypeId × Caster)} {t : TypeId} {c : Caster} {s : TypeId} :
    s ∈ (basesAdd l t c).map (·.1) ↔ s ∈ l.map (·.1) ∨ s = t := by
  simp only [List.mem_map, mem_basesAdd]
  constructor
  · rintro ⟨x, (h | ⟨rfl, _⟩), rfl⟩
    · exact .inl ⟨x, h, rfl⟩
    · exact .inr rfl
  · rintro (⟨x, h, rfl⟩ | rfl)
    · exact ⟨x, .inl h, rfl⟩
    · by_cases hm : ∃ a, a ∈ l ∧ a.1 = s
      · obtain ⟨a, h1, h2⟩ := hm; exact ⟨a, .inl h1, h2⟩
      · exact ⟨(s, c), .inr ⟨rfl, hm⟩, rfl⟩

theorem nodup_basesAdd {l : List (TypeId × Caster)} {t : TypeId} {c : Caster}
    (h : (l.map (·.1)).Nodup) : ((basesAdd l t c).map (·.1)).Nodup := by
  unfold basesAdd
  split
  · exact h
  · rename_i hn
    rw [List.map_append, List.nodup_append]
    refine ⟨h, by simp, ?_⟩
    intro a ha b hb e
    simp at hb; subst hb; subst e
    apply hn
    obtain ⟨x, h1, h2⟩ := List.mem_map.1 ha
    simp only [List.any_eq_true, beq_iff_eq]
    exact ⟨x, h1, h2.symm⟩

theorem mem_derivedAdd {l : List TypeId} {t s : TypeId} : s ∈ derivedAdd l t ↔ s ∈ l ∨ s = t := by
  unfold derivedAdd
  split
  · rename_i h; simp at h
    constructor
    · exact .inl
    · rintro (h' | rfl)
      · exact h'
      · exact h
  · simp

theorem nodup_derivedAdd {l : List TypeId} {t : TypeId} (h : l.Nodup) : (derivedAdd l t).Nodup := by
  unfold derivedAdd
  split
  · exact h
  · rename_i hn
    rw [List.nodup_append]
    refine ⟨h, by simp, ?_⟩
    intro a ha b hb e
    simp at hb; subst hb; subst e; simp at hn; exact hn ha

theorem Inv.addBase {rank} {w : World} (i : Inv rank w) (this : Ptr) (hk : w.kind this = some .cls)
    (t : TypeId) (c : Caster) (hr : rank t < rank (w.cls this).typeId) :
    Inv rank (w.addBaseClass this t c).1 := by
  rcases addBaseClass_eq i this hk t c with ⟨_, h⟩ | ⟨_, _, h⟩ | ⟨base, hv, hm, _, h⟩
  · rw [h]; exact i
  · rw [h]; exact i
  · obtain ⟨_, hbk, hbt⟩ := i.mc t base hm
    have hne : base ≠ this := by rintro rfl; rw [hbt] at hr; omega
    rw [h]
    generalize hW : ({ w with cls := _ } : World) = W
    clear h
    have e1 : W.cls this = { w.cls this with bases := basesAdd (w.cls this).bases t c } := by
      subst hW; simp [upd_ne _ _ hne.symm]
    have e2 : W.cls base = { w.cls base with
        derived := derivedAdd (w.cls base).derived (w.cls this).typeId } := by
      subst hW; simp [upd_ne _ _ hne]
    have e3 : ∀ p, p ≠ this → p ≠ base → W.cls p = w.cls p := by
      intro p h1 h2; subst hW; simp [upd_ne _ _ h1, upd_ne _ _ h2]
    have etid : ∀ p, (W.cls p).typeId = (w.cls p).typeId := by
      intro p
      by_cases h1 : p = this
      · subst h1; rw [e1]
      · by_cases h2 : p = base
        · subst h2; rw [e2]
        · rw [e3 p h1 h2]
    have ebases : ∀ p, p ≠ this → (W.cls p).bases = (w.cls p).bases := by
      intro p h1
      by_cases h2 : p = base
      · subst h2; rw [e2]
      · rw [e3 p h1 h2]
    have eder : ∀ p, p ≠ base → (W.cls p).derived = (w.cls p).derived := by
      intro p h1
      by_cases h2 : p = this
      · subst h2; rw [e1]
      · rw [e3 p h2 h1]
    have dmono : ∀ p s, s ∈ (w.cls p).derived → s ∈ (W.cls p).derived := by
      intro p s h
      by_cases h1 : p = base
      · subst h1; rw [e2]; simp [mem_derivedAdd, h]
      · rw [eder p h1]; exact h
    have bmono : ∀ p s, s ∈ (w.cls p).bases.map (·.1) → s ∈ (W.cls p).bases.map (·.1) := by
      intro p s h
      by_cases h1 : p = this
      · subst h1; rw [e1]; exact fst_mem_basesAdd.2 (.inl h)
      · rw [ebases p h1]; exact h
    have hkind : W.kind = w.kind := by subst hW; rfl
    have hmc : W.metaClass = w.metaClass := by subst hW; rfl
    have hval : W.valid = w.valid := by subst hW; rfl
    have hcont : W.cont = w.cont := by subst hW; rfl
    have hname : W.name = w.name := by subst hW; rfl
    have hown : W.owner = w.owner := by subst hW; rfl
    have hnext : W.next = w.next := by subst hW; rfl
    constructor
    · rw [hnext]; exact i.next_ge
    · rw [hkind, hnext]; exact i.kind_lt
    · rw [hkind]; exact i.glob
    · rw [hcont]; exact i.wf
    · intro c k x hx
      rw [hcont] at hx
      have := i.items c k x hx
      rw [isContainer_iff] at this ⊢
      rw [hkind, hname, hown]; exact this
    · rw [hkind, hown, hname, hcont]; exact i.owned
    · intro t p h; rw [hmc] at h; rw [hval, hkind, etid]; exact i.mc t p h
    · intro p h; rw [hkind] at h; rw [hmc, etid]; exact i.cm p h
    · intro p h x hx
      rw [hkind] at h
      rw [etid, hmc]
      by_cases h1 : p = this
      · subst h1
        rw [e1] at hx
        rcases mem_basesAdd.1 hx with hx | ⟨rfl, _⟩
        · obtain ⟨b, h1, h2⟩ := i.bases p h x hx
          exact ⟨b, h1, dmono _ _ h2⟩
        · exact ⟨base, hm, by rw [e2]; simp [mem_derivedAdd]⟩
      · rw [ebases p h1] at hx
        obtain ⟨b, h1, h2⟩ := i.bases p h x hx
        exact ⟨b, h1, dmono _ _ h2⟩
    · intro b h s hs
      rw [hkind] at h
      rw [etid, hmc]
      by_cases h1 : b = base
      · subst h1
        rw [e2] at hs
        rcases mem_derivedAdd.1 hs with hs | rfl
        · obtain ⟨d, h1, h2⟩ := i.derived b h s hs
          exact ⟨d, h1, bmono _ _ h2⟩
        · refine ⟨this, i.cm this hk, ?_⟩
          rw [e1, hbt]; exact fst_mem_basesAdd.2 (.inr rfl)
      · rw [eder b h1] at hs
        obtain ⟨d, h1, h2⟩ := i.derived b h s hs
        exact ⟨d, h1, bmono _ _ h2⟩
    · intro p h
      rw [hkind] at h
      by_cases h1 : p = this
      · subst h1; rw [e1]; exact nodup_basesAdd (i.bnodup p h)
      · rw [ebases p h1]; exact i.bnodup p h
    · intro p h
      rw [hkind] at h
      by_cases h1 : p = base
      · subst h1; rw [e2]; exact nodup_derivedAdd (i.dnodup p h)
      · rw [eder p h1]; exact i.dnodup p h
    · intro p h x hx
      rw [hkind] at h
      rw [etid]
      by_cases h1 : p = this
      · subst h1; rw [e1] at hx
        rcases mem_basesAdd.1 hx with hx | ⟨rfl, _⟩
        · exact i.ranked p h x hx
        · exact hr
      · rw [ebases p h1] at hx; exact i.ranked p h x hx
    · rw [hval]; exact i.valid0

theorem Inv.step {rank} {w : World} (i : Inv rank w) (op : Op) (hl : Legal rank w op) :
    Inv rank (w.step op).1 := by
  cases op with
  | registerType t =>
    simp only [World.step]
    split
    · exact i
    · rename_i ht
      constructor
      · exact i.next_ge
      · exact i.kind_lt
      · exact i.glob
      · exact i.wf
      · intro c k x hx; exact i.items c k x hx
      · exact i.owned
      · intro t' p h
        refine ⟨?_, (i.mc t' p h).2⟩
        by_cases e : t' = t
        · subst e; simp
        · simp only [upd_ne _ _ e]; exact (i.mc t' p h).1
      · exact i.cm
      · exact i.bases
      · exact i.derived
      · exact i.bnodup
      · exact i.dnodup
      · exact i.ranked
      · simp only; rw [upd_ne _ _ (Ne.symm ht)]; exact i.valid0
  | createNamespace o n =>
    simp only [World.step, createNamespace]
    cases hc : w.isContainer o with
    | true => exact i.getOrCreate o hc _ _ _ _ _ (stored_id w o (by decide) n 0) (by simp)
    | false => simp [World.getOrCreate, getItem_ub hc, i]
  | createEnum o n =>
    simp only [World.step, createEnum]
    cases hc : w.isContainer o with
    | true => exact i.getOrCreate o hc _ _ _ _ _ (stored_id w o (by decide) n 0) (by simp)
    | false => simp [World.getOrCreate, getItem_ub hc, i]
  | createClass o n t =>
    simp only [World.step, createClass]
    cases hc : w.isContainer o with
    | false => simp [getItem_ub hc, i]
    | true =>
      split
      · split
        · exact i
        · rename_i hv
          split
          · exact i
          · rename_i hm
            exact i.getOrCreate o hc _ _ _ _ _ (stored_cls w o n t) (fun _ => by
              simp at hv hm; exact ⟨hv, hm⟩)
      · exact i
  | createMethod o s b =>
    simp only [World.step]
    split
    · rename_i hc
      simp only [createMethod]
      split
      · exact i
      · exact i.getOrCreate o hc _ _ _ _ _ (stored_id w o (by decide) s 0) (by simp)
    · exact i
  | createProperty o n b =>
    simp only [World.step]
    split
    · rename_i hc
      simp only [createProperty]
      split
      · exact i
      · exact i.getOrCreate o hc _ _ _ _ _ (stored_id w o (by decide) n 0) (by simp)
    · exact i
  | createConstructor o s b =>
    simp only [World.step]
    split
    · rename_i hc
      simp only [createConstructor]
      split
      · exact i
      · exact i.getOrCreate o hc _ _ _ _ _ (stored_id w o (by decide) s 0) (by simp)
    · exact i
  | addBase this t c =>
    simp only [World.step]
    split
    · rename_i hk
      have := i.addBase this hk t c hl
      split <;> (rename_i h; rw [h] at this; exact this)
    · exact i

theorem Inv.miss {rank} {w : World} (i : Inv rank w) (o : Ptr) (ho : w.isContainer o = true) (k : Cat) (hk : k = .method ∨ k = .property)
    (n : Str) : Inv rank (missed w o k n) := by
  have hc : k ≠ .cls := by rcases hk with rfl | rfl <;> decide
  exact i.getOrCreate o ho k n 0 _ _ (stored_id w o hc n 0) fun h => absurd h hc

theorem Inv.reachable {rank} {w : World} (h : Reachable rank w) : Inv rank w := by
  induction h with
  | init => exact Inv.init rank
  | step op _ hl _ _ ih => exact ih.step op hl
  | missed o k n _ ho hk ih => exact ih.miss o ho k hk n

end World
end Rtti
