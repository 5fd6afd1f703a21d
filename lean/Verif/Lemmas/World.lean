import Verif.Lemmas.ItemList
import Verif.Spec.Hierarchy
namespace Rtti
open Spec

@[simp] theorem upd_same {A B : Type} [DecidableEq A] (f : A → B) (a : A) (b : B) :
    upd f a b a = b := by simp [upd]
theorem upd_ne {A B : Type} [DecidableEq A] (f : A → B) {a x : A} (b : B) (h : x ≠ a) :
    upd f a b x = f x := by simp [upd, h]

namespace World

structure Inv (rank : TypeId → Nat) (w : World) : Prop where
  next_ge : 2 ≤ w.next
  kind_lt : ∀ p k, w.kind p = some k → 0 < p ∧ p < w.next
  glob : w.kind 1 = some .nmspace
  wf : ∀ c k, (w.cont c k).Wf
  items : ∀ c k x, x ∈ (w.cont c k).items →
    w.isContainer c = true ∧ w.kind x.ptr = some k ∧ w.name x.ptr = x.name ∧ w.owner x.ptr = some c
  owned : ∀ p k, w.kind p = some k → p ≠ 1 →
    ∃ c, w.owner p = some c ∧ ⟨p, w.name p⟩ ∈ (w.cont c k).items
  mc : ∀ t p, w.metaClass t = some p → w.valid t = true ∧ w.kind p = some .cls ∧ (w.cls p).typeId = t
  cm : ∀ p, w.kind p = some .cls → w.metaClass (w.cls p).typeId = some p
  bases : ∀ p, w.kind p = some .cls → ∀ x ∈ (w.cls p).bases,
    ∃ b, w.metaClass x.1 = some b ∧ (w.cls p).typeId ∈ (w.cls b).derived
  derived : ∀ b, w.kind b = some .cls → ∀ t ∈ (w.cls b).derived,
    ∃ d, w.metaClass t = some d ∧ (w.cls b).typeId ∈ (w.cls d).bases.map (·.1)
  bnodup : ∀ p, w.kind p = some .cls → ((w.cls p).bases.map (·.1)).Nodup
  dnodup : ∀ p, w.kind p = some .cls → (w.cls p).derived.Nodup
  ranked : ∀ p, w.kind p = some .cls → ∀ x ∈ (w.cls p).bases, rank x.1 < rank (w.cls p).typeId
  valid0 : w.valid 0 = false

theorem Inv.init (rank) : Inv rank World.init := by
  have hk : ∀ p k, World.init.kind p = some k → p = 1 ∧ k = .nmspace := by
    intro p k h
    have h' : (if p = 1 then some Cat.nmspace else none) = some k := h
    split at h'
    · rename_i e; exact ⟨e, (Option.some.inj h').symm⟩
    · cases h'
  have hnc : ∀ p, ¬ World.init.kind p = some .cls := fun p h => by cases (hk p _ h).2
  constructor
  · exact Nat.le_refl _
  · intro p k h; obtain ⟨rfl, _⟩ := hk p k h; exact ⟨Nat.one_pos, Nat.lt_succ_self 1⟩
  · rfl
  · intro c k; exact ItemList.Wf.empty
  · intro c k x hx; exact absurd hx (List.not_mem_nil)
  · intro p k h hp; exact absurd (hk p k h).1 hp
  · intro t p h; cases h
  · intro p h; exact absurd h (hnc p)
  · intro p h; exact absurd h (hnc p)
  · intro p h; exact absurd h (hnc p)
  · intro p h; exact absurd h (hnc p)
  · intro p h; exact absurd h (hnc p)
  · intro p h; exact absurd h (hnc p)
  · rfl

theorem Inv.kind_next {rank w} (i : Inv rank w) : w.kind w.next = none := by
  cases h : w.kind w.next with
  | none => rfl
  | some k => have := i.kind_lt _ _ h; omega

theorem isContainer_iff (w : World) (c : Ptr) :
    w.isContainer c = true ↔ w.kind c = some .nmspace ∨ w.kind c = some .cls := by
  simp [isContainer]

theorem Inv.container_ne_next {rank w} (i : Inv rank w) {c : Ptr} (h : w.isContainer c = true) :
    c ≠ w.next := by
  rintro rfl
  rw [isContainer_iff, i.kind_next] at h
  simp at h

/-- a refused addition changes nothing but burns an address -/
theorem Inv.refused {rank w} (i : Inv rank w) (o : Ptr) (ho : w.isContainer o = true) (k : Cat)
    (n : Str) (t : TypeId)
    (hr : ((w.alloc k n o t).addItem o k ⟨w.next, n⟩).2 = false) :
    Inv rank (((w.alloc k n o t).addItem o k ⟨w.next, n⟩).1.free w.next) ∧
    (∀ c k', c ≠ w.next → (((w.alloc k n o t).addItem o k ⟨w.next, n⟩).1.free w.next).cont c k'
      = w.cont c k') := by
  have hon := i.container_ne_next ho
  have hl : ((w.cont o k).add (some ⟨w.next, n⟩)) = (w.cont o k, false) := by
    have hr' : ((w.cont o k).add (some ⟨w.next, n⟩)).2 = false := by
      simpa [addItem, Container.addItem, alloc, upd_ne _ _ hon] using hr
    have := (i.wf o k).add_spec ⟨w.next, n⟩
    split at this
    · exact this
    · rw [this.2] at hr'; cases hr'
  have hcont : ∀ c k', (((w.alloc k n o t).addItem o k ⟨w.next, n⟩).1.free w.next).cont c k' =
      if c = w.next then ItemList.empty else w.cont c k' := by
    intro c k'
    by_cases hc : c = o
    · subst hc
      simp only [addItem, free, Container.addItem, upd_same, alloc, upd_ne _ _ hon, hl]
      split
      · rename_i e; subst e; simp
      · simp
    · simp only [addItem, free, upd_ne _ _ hc, alloc]
      by_cases h2 : c = w.next
      · subst h2; simp [Container.empty]
      · simp [upd_ne _ _ h2, h2]
  refine ⟨?_, fun c k' hc => by rw [hcont, if_neg hc]⟩
  generalize hW : (((w.alloc k n o t).addItem o k ⟨w.next, n⟩).1.free w.next) = W at hcont
  have hk : W.kind = w.kind := by
    subst hW; funext p
    simp only [addItem, free, alloc]
    by_cases h : p = w.next
    · subst h; simp [i.kind_next]
    · simp [upd_ne _ _ h]
  have hname : ∀ p, p ≠ w.next → W.name p = w.name p := by
    intro p h; subst hW; simp [addItem, free, alloc, upd_ne _ _ h]
  have hown : ∀ p, p ≠ w.next → W.owner p = w.owner p := by
    intro p h; subst hW; simp [addItem, free, alloc, upd_ne _ _ h]
  have hcls : ∀ p, p ≠ w.next → W.cls p = w.cls p := by
    intro p h; subst hW; simp [addItem, free, alloc, upd_ne _ _ h]
  have hnext : W.next = w.next + 1 := by subst hW; rfl
  have hval : W.valid = w.valid := by subst hW; rfl
  have hmc : W.metaClass = w.metaClass := by subst hW; rfl
  have hne : ∀ p k, w.kind p = some k → p ≠ w.next := by
    intro p k h e; have := i.kind_lt _ _ h; omega
  constructor
  · rw [hnext]; have := i.next_ge; omega
  · intro p k h; rw [hk] at h; have := i.kind_lt p k h; rw [hnext]; omega
  · rw [hk]; exact i.glob
  · intro c k'; rw [hcont]; split
    · exact ItemList.Wf.empty
    · exact i.wf c k'
  · intro c k' x hx
    rw [hcont] at hx
    split at hx
    · simp [ItemList.empty] at hx
    · obtain ⟨h1, h2, h3, h4⟩ := i.items c k' x hx
      have := hne _ _ h2
      refine ⟨by simpa [isContainer, hk] using h1, by rw [hk]; exact h2, by rw [hname _ this]; exact h3,
        by rw [hown _ this]; exact h4⟩
  · intro p k' h hp
    rw [hk] at h
    obtain ⟨c, h1, h2⟩ := i.owned p k' h hp
    have hpn := hne _ _ h
    have hc : c ≠ w.next := i.container_ne_next (i.items _ _ _ h2).1
    exact ⟨c, by rw [hown _ hpn]; exact h1, by rw [hcont, if_neg hc, hname _ hpn]; exact h2⟩
  · intro t p h
    rw [hmc] at h
    obtain ⟨h1, h2, h3⟩ := i.mc t p h
    exact ⟨by rw [hval]; exact h1, by rw [hk]; exact h2, by rw [hcls _ (hne _ _ h2)]; exact h3⟩
  · intro p h
    rw [hk] at h
    rw [hmc, hcls _ (hne _ _ h)]; exact i.cm p h
  · intro p h x hx
    rw [hk] at h
    rw [hcls _ (hne _ _ h)] at hx ⊢
    obtain ⟨b, h1, h2⟩ := i.bases p h x hx
    exact ⟨b, by rw [hmc]; exact h1, by rw [hcls _ (hne _ _ (i.mc _ _ h1).2.1)]; exact h2⟩
  · intro p h x hx
    rw [hk] at h
    rw [hcls _ (hne _ _ h)] at hx ⊢
    obtain ⟨b, h1, h2⟩ := i.derived p h x hx
    exact ⟨b, by rw [hmc]; exact h1, by rw [hcls _ (hne _ _ (i.mc _ _ h1).2.1)]; exact h2⟩
  · intro p h; rw [hk] at h; rw [hcls _ (hne _ _ h)]; exact i.bnodup p h
  · intro p h; rw [hk] at h; rw [hcls _ (hne _ _ h)]; exact i.dnodup p h
  · intro p h; rw [hk] at h; rw [hcls _ (hne _ _ h)]; exact i.ranked p h
  · rw [hval]; exact i.valid0

/-- the world after a successful creation -/
def created (w : World) (o : Ptr) (k : Cat) (n : Str) (t : TypeId) : World :=
  let w' := ((w.alloc k n o t).addItem o k ⟨w.next, n⟩).1
  if k = .cls then { w' with metaClass := upd w'.metaClass t (some w.next) } else w'

theorem Inv.created_facts {rank w} (i : Inv rank w) (o : Ptr) (ho : w.isContainer o = true) (k : Cat)
    (n : Str) (t : TypeId) (hr : ((w.alloc k n o t).addItem o k ⟨w.next, n⟩).2 = true) :
    (∀ c k', ((w.created o k n t).cont c k').items =
      if c = o ∧ k' = k then (w.cont o k).items ++ [⟨w.next, n⟩]
      else if c = w.next then [] else (w.cont c k').items) ∧
    (∀ c k', ((w.created o k n t).cont c k').Wf) ∧
    (∀ x ∈ (w.cont o k).items, x.name ≠ n) := by
  have hon := i.container_ne_next ho
  have hr' : ((w.cont o k).add (some ⟨w.next, n⟩)).2 = true := by
    simpa [addItem, Container.addItem, alloc, upd_ne _ _ hon] using hr
  have hl := (i.wf o k).add_spec ⟨w.next, n⟩
  split at hl
  · rw [hl] at hr'; cases hr'
  · rename_i hnot
    have hcont : ∀ c k', (w.created o k n t).cont c k' =
        if c = o ∧ k' = k then ((w.cont o k).add (some ⟨w.next, n⟩)).1
        else if c = w.next then ItemList.empty else w.cont c k' := by
      intro c k'
      have e0 : (w.created o k n t).cont = ((w.alloc k n o t).addItem o k ⟨w.next, n⟩).1.cont := by
        unfold created; simp only; split <;> rfl
      rw [e0]
      by_cases hc : c = o
      · subst hc
        simp only [addItem, Container.addItem, upd_same, alloc, upd_ne _ _ hon]
        split
        · rename_i e; simp [e]
        · rename_i e; simp [e]
      · simp only [addItem, upd_ne _ _ hc, alloc]
        by_cases h2 : c = w.next
        · subst h2; simp [Container.empty, hc]
        · simp [upd_ne _ _ h2, h2, hc]
    refine ⟨?_, ?_, ?_⟩
    · intro c k'
      rw [hcont]
      split
      · exact hl.1
      · split <;> simp [ItemList.empty]
    · intro c k'
      rw [hcont]
      split
      · exact (i.wf o k).add _
      · split
        · exact .empty
        · exact i.wf c k'
    · simp only [not_or, not_exists, not_and] at hnot
      exact hnot.2

theorem Inv.created {rank w} (i : Inv rank w) (o : Ptr) (ho : w.isContainer o = true) (k : Cat)
    (n : Str) (t : TypeId)
    (hr : ((w.alloc k n o t).addItem o k ⟨w.next, n⟩).2 = true)
    (hc : k = .cls → w.valid t = true ∧ w.metaClass t = none) :
    Inv rank (w.created o k n t) := by
  have hon := i.container_ne_next ho
  obtain ⟨hitems, hwf, hfresh⟩ := i.created_facts o ho k n t hr
  generalize hW : w.created o k n t = W at hitems hwf
  have hk : W.kind = upd w.kind w.next (some k) := by
    subst hW; unfold World.created; simp only; split <;> rfl
  have hname : W.name = upd w.name w.next n := by
    subst hW; unfold World.created; simp only; split <;> rfl
  have hown : W.owner = upd w.owner w.next (some o) := by
    subst hW; unfold World.created; simp only; split <;> rfl
  have hcls : W.cls = upd w.cls w.next ⟨t, [], []⟩ := by
    subst hW; unfold World.created; simp only; split <;> rfl
  have hnext : W.next = w.next + 1 := by
    subst hW; unfold World.created; simp only; split <;> rfl
  have hval : W.valid = w.valid := by
    subst hW; unfold World.created; simp only; split <;> rfl
  have hmc : W.metaClass = if k = .cls then upd w.metaClass t (some w.next) else w.metaClass := by
    subst hW; unfold World.created; simp only; split <;> rfl
  have hne : ∀ p k, w.kind p = some k → p ≠ w.next := by
    intro p k h e; have := i.kind_lt _ _ h; omega
  have hcont : ∀ c, w.isContainer c = true → W.isContainer c = true := by
    intro c h
    have : c ≠ w.next := i.container_ne_next h
    simpa [isContainer, hk, upd_ne _ _ this] using h
  -- classes: old or new
  have hold : ∀ p, W.kind p = some .cls → (p = w.next ∧ k = .cls) ∨ (p ≠ w.next ∧ w.kind p = some .cls) := by
    intro p h
    rw [hk] at h
    by_cases e : p = w.next
    · subst e; simp at h; exact .inl ⟨rfl, h⟩
    · rw [upd_ne _ _ e] at h; exact .inr ⟨e, h⟩
  have mcOld : ∀ t' p, w.metaClass t' = some p → W.metaClass t' = some p := by
    intro t' p h
    rw [hmc]; split
    · rename_i e
      have : t' ≠ t := by rintro rfl; rw [(hc e).2] at h; cases h
      rw [upd_ne _ _ this]; exact h
    · exact h
  constructor
  · rw [hnext]; have := i.next_ge; omega
  · intro p k' h
    rw [hk] at h; rw [hnext]
    by_cases e : p = w.next
    · have := i.next_ge; omega
    · rw [upd_ne _ _ e] at h; have := i.kind_lt p k' h; omega
  · rw [hk, upd_ne]; exact i.glob
    have := i.next_ge; omega
  · exact hwf
  · intro c k' x hx
    rw [hitems] at hx
    split at hx
    · rename_i e; obtain ⟨rfl, rfl⟩ := e
      simp only [List.mem_append, List.mem_singleton] at hx
      rcases hx with hx | rfl
      · obtain ⟨h1, h2, h3, h4⟩ := i.items c k' x hx
        have := hne _ _ h2
        exact ⟨hcont _ h1, by rw [hk, upd_ne _ _ this]; exact h2, by rw [hname, upd_ne _ _ this]; exact h3,
          by rw [hown, upd_ne _ _ this]; exact h4⟩
      · exact ⟨hcont _ ho, by simp [hk], by simp [hname], by simp [hown]⟩
    · split at hx
      · simp at hx
      · obtain ⟨h1, h2, h3, h4⟩ := i.items c k' x hx
        have := hne _ _ h2
        exact ⟨hcont _ h1, by rw [hk, upd_ne _ _ this]; exact h2, by rw [hname, upd_ne _ _ this]; exact h3,
          by rw [hown, upd_ne _ _ this]; exact h4⟩
  · intro p k' h hp
    rw [hk] at h
    by_cases e : p = w.next
    · subst e; simp at h; subst h
      exact ⟨o, by simp [hown], by rw [hitems]; simp [hname]⟩
    · rw [upd_ne _ _ e] at h
      obtain ⟨c, h1, h2⟩ := i.owned p k' h hp
      have hcn : c ≠ w.next := i.container_ne_next (i.items _ _ _ h2).1
      refine ⟨c, by rw [hown, upd_ne _ _ e]; exact h1, ?_⟩
      rw [hitems, hname, upd_ne _ _ e]
      split
      · rename_i e2; obtain ⟨rfl, rfl⟩ := e2; simp [h2]
      · exact h2
  · intro t' p h
    rw [hmc] at h
    rw [hval, hk, hcls]
    split at h
    · rename_i e
      by_cases et : t' = t
      · subst et; simp at h; subst h
        exact ⟨(hc e).1, by simp [e], by simp⟩
      · rw [upd_ne _ _ et] at h
        obtain ⟨h1, h2, h3⟩ := i.mc t' p h
        have := hne _ _ h2
        exact ⟨h1, by rw [upd_ne _ _ this]; exact h2, by rw [upd_ne _ _ this]; exact h3⟩
    · obtain ⟨h1, h2, h3⟩ := i.mc t' p h
      have := hne _ _ h2
      exact ⟨h1, by rw [upd_ne _ _ this]; exact h2, by rw [upd_ne _ _ this]; exact h3⟩
  · intro p h
    rcases hold p h with ⟨rfl, e⟩ | ⟨e, h'⟩
    · rw [hmc, hcls]; simp [e]
    · rw [hcls, upd_ne _ _ e]; exact mcOld _ _ (i.cm p h')
  · intro p h x hx
    rcases hold p h with ⟨rfl, e⟩ | ⟨e, h'⟩
    · rw [hcls] at hx; simp at hx
    · rw [hcls, upd_ne _ _ e] at hx ⊢
      obtain ⟨b, h1, h2⟩ := i.bases p h' x hx
      exact ⟨b, mcOld _ _ h1, by rw [upd_ne _ _ (hne _ _ (i.mc _ _ h1).2.1)]; exact h2⟩
  · intro p h x hx
    rcases hold p h with ⟨rfl, e⟩ | ⟨e, h'⟩
    · rw [hcls] at hx; simp at hx
    · rw [hcls, upd_ne _ _ e] at hx ⊢
      obtain ⟨b, h1, h2⟩ := i.derived p h' x hx
      exact ⟨b, mcOld _ _ h1, by rw [upd_ne _ _ (hne _ _ (i.mc _ _ h1).2.1)]; exact h2⟩
  · intro p h
    rcases hold p h with ⟨rfl, e⟩ | ⟨e, h'⟩
    · rw [hcls]; simp
    · rw [hcls, upd_ne _ _ e]; exact i.bnodup p h'
  · intro p h
    rcases hold p h with ⟨rfl, e⟩ | ⟨e, h'⟩
    · rw [hcls]; simp
    · rw [hcls, upd_ne _ _ e]; exact i.dnodup p h'
  · intro p h
    rcases hold p h with ⟨rfl, e⟩ | ⟨e, h'⟩
    · rw [hcls]; simp
    · rw [hcls, upd_ne _ _ e]; exact i.ranked p h'
  · rw [hval]; exact i.valid0

end World
end Rtti
