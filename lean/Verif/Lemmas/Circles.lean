import Verif.Lemmas.LazyOrigin
import Verif.Spec.Circles
/-! Depth-first searches in graphs that may have circles, and the class hierarchy as such a graph (C86). -/
set_option autoImplicit false
namespace Rtti
open Spec

theorem nodup_bounded (B : Nat) : ∀ l : List Nat, l.Nodup → (∀ x ∈ l, x < B) → l.length ≤ B := by
  induction B with
  | zero =>
    intro l _ h
    cases l with
    | nil => exact Nat.le_refl _
    | cons x l => exact absurd (h x (.head _)) (Nat.not_lt_zero _)
  | succ B ih =>
    intro l hn h
    by_cases hm : B ∈ l
    · have := ih (l.erase B) (hn.erase B) fun x hx => by
        have h1 := h x (List.mem_of_mem_erase hx)
        have h2 : x ≠ B := by
          rintro rfl
          exact (hn.not_mem_erase) hx
        omega
      rw [List.length_erase_of_mem hm] at this
      omega
    · have := ih l hn fun x hx => by
        have h1 := h x hx
        have h2 : x ≠ B := by rintro rfl; exact hm hx
        omega
      omega

namespace Dfs
variable {A : Type}

def loop (f : Nat → Option (Option A)) : List Nat → Option (Option A)
  | [] => some none
  | p :: ps =>
    match f p with
    | some (some a) => some (some a)
    | some none => loop f ps
    | none => none

variable (own : Nat → Option A) (bs : Nat → List Nat)

def dfs : Nat → Nat → Option (Option A)
  | 0, _ => none
  | n + 1, c =>
    match own c with
    | some a => some (some a)
    | none => loop (dfs n) (bs c)

inductive Star : Nat → Nat → Prop
  | refl (c : Nat) : Star c c
  | step {c p q : Nat} : own c = none → p ∈ bs c → Star p q → Star c q

def Circ (c : Nat) : Prop := own c = none ∧ ∃ p ∈ bs c, Star own bs p c

inductive First : Nat → A → Prop
  | here {c : Nat} {a : A} : own c = some a → First c a
  | there {c p : Nat} {a : A} {pre post : List Nat} : own c = none → bs c = pre ++ p :: post →
      (∀ q ∈ pre, ∀ x, Star own bs q x → own x = none) → First p a → First c a

variable {own bs}

theorem Star.trans {a b c : Nat} (h : Star own bs a b) (h' : Star own bs b c) : Star own bs a c := by
  induction h with
  | refl => exact h'
  | step h1 h2 _ ih => exact .step h1 h2 (ih h')

theorem loop_none {f : Nat → Option (Option A)} {l : List Nat} : loop f l = some none ↔ ∀ q ∈ l, f q = some none := by
  induction l with
  | nil => simp [loop]
  | cons p l ih =>
    rw [loop]
    rcases h : f p with _ | _ | a <;> simp [h, ih]

theorem loop_some {f : Nat → Option (Option A)} {l : List Nat} {a : A} (h : loop f l = some (some a)) :
    ∃ pre p post, l = pre ++ p :: post ∧ (∀ q ∈ pre, f q = some none) ∧ f p = some (some a) := by
  induction l with
  | nil => simp [loop] at h
  | cons p l ih =>
    rw [loop] at h
    rcases hp : f p with _ | _ | a' <;> rw [hp] at h
    · simp at h
    · obtain ⟨pre, q, post, e, h1, h2⟩ := ih h
      exact ⟨p :: pre, q, post, by rw [e]; rfl, by simpa [hp] using h1, h2⟩
    · exact ⟨[], p, l, rfl, by simp, by rw [hp]; exact h⟩

theorem loop_div {f : Nat → Option (Option A)} {l : List Nat} (h : loop f l = none) :
    ∃ pre p post, l = pre ++ p :: post ∧ (∀ q ∈ pre, f q = some none) ∧ f p = none := by
  induction l with
  | nil => simp [loop] at h
  | cons p l ih =>
    rw [loop] at h
    rcases hp : f p with _ | _ | a' <;> rw [hp] at h
    · exact ⟨[], p, l, rfl, by simp, hp⟩
    · obtain ⟨pre, q, post, e, h1, h2⟩ := ih h
      exact ⟨p :: pre, q, post, by rw [e]; rfl, by simpa [hp] using h1, h2⟩
    · simp at h

theorem loop_pre {f : Nat → Option (Option A)} {pre post : List Nat} {p : Nat} (h : ∀ q ∈ pre, f q = some none) (hp : f p = none) :
    loop f (pre ++ p :: post) = none := by
  induction pre with
  | nil => simp [loop, hp]
  | cons q pre ih => rw [List.cons_append, loop, h q (.head _)]; exact ih fun q hq => h q (.tail _ hq)

theorem loop_mono {f g : Nat → Option (Option A)} (h : ∀ q r, f q = some r → g q = some r) {l : List Nat} {r : Option A}
    (e : loop f l = some r) : loop g l = some r := by
  induction l with
  | nil => exact e
  | cons p l ih =>
    rw [loop] at e ⊢
    rcases hp : f p with _ | _ | a <;> rw [hp] at e
    · cases e
    · rw [h _ _ hp]; exact ih e
    · rw [h _ _ hp]; exact e

theorem dfs_step {n c : Nat} {r : Option A} (h : dfs own bs n c = some r) : dfs own bs (n + 1) c = some r := by
  induction n generalizing c r with
  | zero => cases h
  | succ n ih =>
    rw [dfs] at h ⊢
    cases ho : own c with
    | some a => rw [ho] at h; exact h
    | none => rw [ho] at h; exact loop_mono (fun q r => ih) h

theorem dfs_mono {n m c : Nat} {r : Option A} (h : dfs own bs n c = some r) (hm : n ≤ m) : dfs own bs m c = some r := by
  induction hm with
  | refl => exact h
  | step _ ih => exact dfs_step ih

theorem dfs_div {n c : Nat} (h : dfs own bs (n + 1) c = none) : own c = none ∧
    ∃ pre p post, bs c = pre ++ p :: post ∧ (∀ q ∈ pre, dfs own bs n q = some none) ∧ dfs own bs n p = none := by
  rw [dfs] at h
  cases ho : own c with
  | some a => rw [ho] at h; cases h
  | none => rw [ho] at h; exact ⟨rfl, loop_div h⟩

theorem chain {n c : Nat} {r : Option A} (h : dfs own bs n c = none) (h' : dfs own bs (n + 1) c = some r) :
    ∃ l : List Nat, l.length = n + 1 ∧ l.Nodup ∧ ∀ x ∈ l, Star own bs c x ∧ ∃ r, dfs own bs (n + 1) x = some r := by
  induction n generalizing c r with
  | zero => exact ⟨[c], rfl, by simp, by rintro x hx; obtain rfl := List.mem_singleton.1 hx; exact ⟨.refl _, r, h'⟩⟩
  | succ n ih =>
    obtain ⟨ho, pre, p, post, e, h1, h2⟩ := dfs_div h
    have h3 : dfs own bs (n + 1) p ≠ none := by
      intro hp
      rw [dfs, ho] at h'
      dsimp only at h'
      rw [e, loop_pre (fun q hq => dfs_step (h1 q hq)) hp] at h'
      cases h'
    obtain ⟨r', hr⟩ := Option.ne_none_iff_exists'.1 h3
    obtain ⟨l, hl, hn, hs⟩ := ih h2 hr
    refine ⟨c :: l, by simp [hl], List.nodup_cons.2 ⟨fun hc => ?_, hn⟩, fun x hx => ?_⟩
    · obtain ⟨_, r'', e'⟩ := hs c hc
      rw [h] at e'
      cases e'
    · rcases List.mem_cons.1 hx with rfl | hx
      · exact ⟨.refl _, r, h'⟩
      · obtain ⟨g1, r'', g2⟩ := hs x hx
        exact ⟨.step ho (by rw [e]; simp) g1, r'', dfs_step g2⟩

/-- what does not end with a stack of all nodes does not end -/
theorem forever {B c : Nat} (hb : ∀ x, Star own bs c x → x < B) {N : Nat} (hN : B ≤ N) (h : dfs own bs N c = none) (m : Nat) :
    dfs own bs m c = none := by
  have up : ∀ k, dfs own bs (N + k) c = none := by
    intro k
    induction k with
    | zero => exact h
    | succ k ih =>
      cases e : dfs own bs (N + (k + 1)) c with
      | none => rfl
      | some r =>
        obtain ⟨l, hl, hn, hs⟩ := chain ih e
        have := nodup_bounded B l hn fun x hx => hb x (hs x hx).1
        omega
  cases e : dfs own bs m c with
  | none => rfl
  | some r =>
    have := dfs_mono e (Nat.le_add_left m N)
    rw [up m] at this
    cases this

theorem circle {B c : Nat} (hb : ∀ x, Star own bs c x → x < B) (h : dfs own bs B c = none) :
    ∃ x, Star own bs c x ∧ Circ own bs x := by
  have long : ∀ k, (∃ x, Star own bs c x ∧ Circ own bs x) ∨ ∃ (p : Nat) (l : List Nat), (p :: l).Nodup ∧ l.length = k ∧
      dfs own bs B p = none ∧ ∀ y ∈ p :: l, Star own bs y p ∧ Star own bs c y := by
    intro k
    induction k with
    | zero => exact .inr ⟨c, [], by simp, rfl, h, by rintro y hy; obtain rfl := List.mem_singleton.1 hy; exact ⟨.refl _, .refl _⟩⟩
    | succ k ih =>
      rcases ih with ih | ⟨p, l, hn, hl, hd, hs⟩
      · exact .inl ih
      · have hp := (hs p (.head _)).2
        have fb : ∀ x, Star own bs p x → x < B := fun x hx => hb x (hp.trans hx)
        obtain ⟨ho, pre, q, post, e, _, h2⟩ := dfs_div (forever fb (Nat.le_refl _) hd (B + 1))
        have hq : q ∈ bs p := by rw [e]; simp
        by_cases hm : q ∈ p :: l
        · exact .inl ⟨p, hp, ho, q, hq, (hs q hm).1⟩
        · refine .inr ⟨q, p :: l, List.nodup_cons.2 ⟨hm, hn⟩, by simp [hl], h2, fun y hy => ?_⟩
          rcases List.mem_cons.1 hy with rfl | hy
          · exact ⟨.refl _, hp.trans (.step ho hq (.refl _))⟩
          · exact ⟨(hs y hy).1.trans (.step ho hq (.refl _)), (hs y hy).2⟩
  rcases long B with hc | ⟨p, l, hn, hl, _, hs⟩
  · exact hc
  · have := nodup_bounded B (p :: l) hn fun x hx => hb x (hs x hx).2
    simp at this
    omega

theorem none_spec {n c : Nat} (h : dfs own bs n c = some none) {x : Nat} (hx : Star own bs c x) :
    own x = none ∧ ∃ k, k ≤ n ∧ dfs own bs k x = some none := by
  induction hx generalizing n with
  | refl c =>
    refine ⟨?_, n, Nat.le_refl _, h⟩
    cases n with
    | zero => cases h
    | succ n =>
      rw [dfs] at h
      cases ho : own c with
      | none => rfl
      | some a => rw [ho] at h; cases h
  | step ho hp _ ih =>
    cases n with
    | zero => cases h
    | succ n =>
      rw [dfs, ho] at h
      obtain ⟨h1, k, h2, h3⟩ := ih (loop_none.1 h _ hp)
      exact ⟨h1, k, by omega, h3⟩

theorem none_circ {n : Nat} : ∀ {c : Nat}, dfs own bs n c = some none → ¬Circ own bs c := by
  induction n using Nat.strongRecOn with
  | ind n ih =>
    intro c h
    rintro ⟨ho, p, hp, hs⟩
    cases n with
    | zero => cases h
    | succ n =>
      have h' := h
      rw [dfs, ho] at h'
      obtain ⟨_, k, h2, h3⟩ := none_spec (loop_none.1 h' _ hp) hs
      exact ih k (by omega) h3 ⟨ho, p, hp, hs⟩

theorem some_spec {n c : Nat} {a : A} (h : dfs own bs n c = some (some a)) : First own bs c a := by
  induction n generalizing c with
  | zero => cases h
  | succ n ih =>
    rw [dfs] at h
    cases ho : own c with
    | some a' => rw [ho] at h; cases h; exact .here ho
    | none =>
      rw [ho] at h
      obtain ⟨pre, p, post, e, h1, h2⟩ := loop_some h
      exact .there ho e (fun q hq x hx => (none_spec (h1 q hq) hx).1) (ih h2)

end Dfs

/-! ### the hierarchy -/
namespace World

structure Loose (w : World) : Prop where
  kind_lt : ∀ p k, w.kind p = some k → p < w.next
  mc : ∀ t p, w.metaClass t = some p → w.valid t = true ∧ w.kind p = some .cls
  bases : ∀ c, ∀ x ∈ (w.cls c).bases, ∃ b, w.metaClass x.1 = some b
  wf : ∀ c k, (w.cont c k).Wf

theorem Loose.init : Loose World.init where
  kind_lt p k h := by
    simp only [World.init] at h ⊢
    split at h
    · omega
    · cases h
  mc t p h := by cases h
  bases c x h := by simp [World.init] at h
  wf c k := ItemList.Wf.empty

private theorem Loose.added {w : World} (i : Loose w) (o : Ptr) (k : Cat) (n : Str) (t : TypeId) :
    let w1 := ((w.alloc k n o t).addItem o k ⟨w.next, n⟩).1
    Loose w1 ∧ w1.kind = upd w.kind w.next (some k) ∧ w1.next = w.next + 1 ∧ w1.metaClass = w.metaClass ∧ w1.valid = w.valid := by
  refine ⟨⟨fun p k' h => ?_, fun t' p h => ?_, fun c x hx => ?_, fun c k' => ?_⟩, rfl, rfl, rfl, rfl⟩
  · simp only [addItem, alloc] at h ⊢
    by_cases e : p = w.next
    · omega
    · rw [upd_ne _ _ e] at h
      have := i.kind_lt p k' h
      omega
  · obtain ⟨h1, h2⟩ := i.mc t' p h
    refine ⟨h1, ?_⟩
    have : p ≠ w.next := by
      have := i.kind_lt _ _ h2
      omega
    simp only [addItem, alloc]
    rw [upd_ne _ _ this]
    exact h2
  · simp only [addItem, alloc] at hx
    by_cases e : c = w.next
    · subst e; rw [upd_same] at hx; simp at hx
    · rw [upd_ne _ _ e] at hx; exact i.bases c x hx
  · have h0 : ∀ c k', ((w.alloc k n o t).cont c k').Wf := by
      intro c k'
      simp only [alloc]
      by_cases e : c = w.next
      · subst e; rw [upd_same]; exact ItemList.Wf.empty
      · rw [upd_ne _ _ e]; exact i.wf c k'
    simp only [addItem, Container.addItem]
    by_cases e : c = o
    · subst e
      rw [upd_same]
      split
      · rename_i e; subst e; exact (h0 _ _).add _
      · exact h0 _ _
    · rw [upd_ne _ _ e]; exact h0 c k'

private theorem Loose.getOrCreate {w : World} (i : Loose w) (o : Ptr) (k : Cat) (n : Str) (t : TypeId) (look : World → Res (Option Ptr))
    (stored : World → Ptr → World) (hs : ∀ w1, Loose w1 → w1.kind w.next = some k → w1.metaClass = w.metaClass → w1.valid = w.valid →
      Loose (stored w1 w.next)) : Loose (w.getOrCreate o k n t look stored).1 := by
  obtain ⟨h1, h2, h3, h4, h5⟩ := i.added o k n t
  unfold World.getOrCreate
  split
  · dsimp only
    split
    · exact hs _ h1 (by rw [h2, upd_same]) h4 h5
    · refine ⟨fun p k' h => ?_, fun t' p h => ?_, h1.bases, h1.wf⟩
      · simp only [free] at h
        by_cases e : p = w.next
        · subst e; rw [upd_same] at h; cases h
        · rw [upd_ne _ _ e] at h; exact h1.kind_lt p k' h
      · obtain ⟨g1, g2⟩ := h1.mc t' p h
        refine ⟨g1, ?_⟩
        have : p ≠ w.next := by
          have h : w.metaClass t' = some p := h4 ▸ h
          have := i.kind_lt _ _ (i.mc _ _ h).2
          omega
        simp only [free]
        rw [upd_ne _ _ this]
        exact g2
  · exact i

theorem Loose.step {w : World} (i : Loose w) (op : Op) : Loose (w.step op).1 := by
  cases op with
  | registerType t =>
    simp only [World.step]
    split
    · exact i
    · refine ⟨i.kind_lt, fun t' p h => ⟨?_, (i.mc t' p h).2⟩, i.bases, i.wf⟩
      dsimp only [upd]
      split
      · rfl
      · exact (i.mc t' p h).1
  | createNamespace o n => exact i.getOrCreate _ _ _ _ _ _ fun _ h _ _ _ => h
  | createEnum o n => exact i.getOrCreate _ _ _ _ _ _ fun _ h _ _ _ => h
  | createMethod o n b =>
    simp only [World.step, createMethod]
    split
    · split
      · exact i
      · exact i.getOrCreate _ _ _ _ _ _ fun _ h _ _ _ => h
    · exact i
  | createProperty o n b =>
    simp only [World.step, createProperty]
    split
    · split
      · exact i
      · exact i.getOrCreate _ _ _ _ _ _ fun _ h _ _ _ => h
    · exact i
  | createConstructor o n b =>
    simp only [World.step, createConstructor]
    split
    · split
      · exact i
      · exact i.getOrCreate _ _ _ _ _ _ fun _ h _ _ _ => h
    · exact i
  | createClass o n t =>
    simp only [World.step, createClass]
    split
    · split
      · exact i
      · split
        · exact i
        · rename_i hv hm
          refine i.getOrCreate _ _ _ _ _ _ fun w1 h hk h4 h5 => ⟨h.kind_lt, fun t' p e => ?_, fun c x hx => ?_, h.wf⟩
          · dsimp only [upd] at e
            split at e
            · rename_i et
              subst et
              cases e
              exact ⟨by rw [h5]; simpa using hv, hk⟩
            · exact h.mc t' p e
          · obtain ⟨b, hb⟩ := h.bases c x hx
            dsimp only [upd]
            split
            · exact ⟨_, rfl⟩
            · exact ⟨b, hb⟩
    · exact i
  | addBase p t c =>
    rcases Lazy.step_addBase w p t c with e | e <;> rw [e]
    · exact i
    unfold addBaseClass
    split
    · exact i
    · split
      · exact i
      · rename_i b hb
        have h1 : Loose { w with cls := upd w.cls p { w.cls p with bases := basesAdd (w.cls p).bases t c } } := by
          refine ⟨i.kind_lt, i.mc, fun d x hx => ?_, i.wf⟩
          dsimp only at hx
          by_cases ed : d = p
          · subst ed
            rw [upd_same] at hx
            dsimp only [basesAdd] at hx
            split at hx
            · exact i.bases d x hx
            · rcases List.mem_append.1 hx with hx | hx
              · exact i.bases d x hx
              · obtain rfl := List.mem_singleton.1 hx
                exact ⟨b, hb⟩
          · rw [upd_ne _ _ ed] at hx; exact i.bases d x hx
        simp only [addDerivedClass]
        split
        · exact h1
        · split
          · exact h1
          · refine ⟨h1.kind_lt, h1.mc, fun d x hx => ?_, h1.wf⟩
            dsimp only at hx
            by_cases ed : d = b
            · subst ed; rw [upd_same] at hx; exact h1.bases d x hx
            · rw [upd_ne _ _ ed] at hx; exact h1.bases d x hx

theorem Loose.calls (ops : List Op) : Loose (afterCalls ops) := by
  unfold afterCalls
  have : ∀ (ops : List Op) (w : World), Loose w → Loose (ops.foldl (fun w op => (w.step op).1) w) := by
    intro ops
    induction ops with
    | nil => exact fun w i => i
    | cons op ops ih => exact fun w i => ih _ (i.step op)
  exact this ops _ .init

/-- every class is the class of its type -/
def Listed (w : World) : Prop := ∀ p, w.kind p = some .cls → w.metaClass (w.cls p).typeId = some p

private theorem Listed.getOrCreate {w : World} (h : Listed w) (o : Ptr) {k : Cat} (hk : k ≠ .cls) (n : Str) (t : TypeId)
    (look : World → Res (Option Ptr)) : Listed (w.getOrCreate o k n t look (fun w _ => w)).1 := by
  have h1 : Listed ((w.alloc k n o t).addItem o k ⟨w.next, n⟩).1 := by
    intro p hp
    simp only [addItem, alloc] at hp ⊢
    by_cases e : p = w.next
    · subst e; rw [upd_same] at hp; exact absurd (Option.some.inj hp) hk
    · rw [upd_ne _ _ e] at hp ⊢; exact h p hp
  unfold World.getOrCreate
  split
  · dsimp only
    split
    · exact h1
    · intro p hp
      simp only [free] at hp ⊢
      by_cases e : p = w.next
      · subst e; rw [upd_same] at hp; cases hp
      · rw [upd_ne _ _ e] at hp; exact h1 p hp
  · exact h

theorem Listed.step {w : World} (h : Listed w) (op : Op) : Listed (w.step op).1 := by
  cases op with
  | registerType t =>
    simp only [World.step]
    split <;> exact h
  | createNamespace o n => exact h.getOrCreate _ (by decide) _ _ _
  | createEnum o n => exact h.getOrCreate _ (by decide) _ _ _
  | createMethod o n b =>
    simp only [World.step, createMethod]
    split
    · split
      · exact h
      · exact h.getOrCreate _ (by decide) _ _ _
    · exact h
  | createProperty o n b =>
    simp only [World.step, createProperty]
    split
    · split
      · exact h
      · exact h.getOrCreate _ (by decide) _ _ _
    · exact h
  | createConstructor o n b =>
    simp only [World.step, createConstructor]
    split
    · split
      · exact h
      · exact h.getOrCreate _ (by decide) _ _ _
    · exact h
  | createClass o n t =>
    simp only [World.step, createClass]
    split
    · split
      · exact h
      · split
        · exact h
        · rename_i hm
          have hn : w.metaClass t = none := by simpa using hm
          unfold World.getOrCreate
          split
          · dsimp only
            split
            · intro p hp
              simp only [addItem, alloc] at hp ⊢
              by_cases e : p = w.next
              · subst e; rw [upd_same]; dsimp only; rw [upd_same]
              · rw [upd_ne _ _ e] at hp ⊢
                have := h p hp
                rw [upd_ne]
                · exact this
                · intro e'; rw [e', hn] at this; cases this
            · intro p hp
              simp only [addItem, alloc, free] at hp ⊢
              by_cases e : p = w.next
              · subst e; rw [upd_same] at hp; cases hp
              · rw [upd_ne _ _ e] at hp ⊢; rw [upd_ne _ _ e] at hp; exact h p hp
          · exact h
    · exact h
  | addBase p t c =>
    rcases Lazy.step_addBase w p t c with e | e <;> rw [e]
    · exact h
    unfold addBaseClass
    split
    · exact h
    · split
      · exact h
      · rename_i b hb
        have h1 : Listed { w with cls := upd w.cls p { w.cls p with bases := basesAdd (w.cls p).bases t c } } := by
          intro d hd
          have := h d hd
          dsimp only
          by_cases ed : d = p
          · subst ed; rw [upd_same]; exact this
          · rw [upd_ne _ _ ed]; exact this
        simp only [addDerivedClass]
        split
        · exact h1
        · split
          · exact h1
          · intro d hd
            have := h1 d hd
            dsimp only at this ⊢
            by_cases ed : d = b
            · subst ed; rw [upd_same]; exact this
            · rw [upd_ne _ _ ed]; exact this

theorem Listed.calls (ops : List Op) : Listed (afterCalls ops) := by
  unfold afterCalls
  have : ∀ (ops : List Op) (w : World), Listed w → Listed (ops.foldl (fun w op => (w.step op).1) w) := by
    intro ops
    induction ops with
    | nil => exact fun w i => i
    | cons op ops ih => exact fun w i => ih _ (i.step op)
  refine this ops _ fun p h => ?_
  simp only [World.init] at h
  split at h <;> cases h

section
variable {w : World} (i : Loose w)
include i

theorem Loose.find {c : Ptr} {x : TypeId × Caster} (hx : x ∈ (w.cls c).bases) : ∃ q, w.find x.1 = some q := by
  obtain ⟨b, hb⟩ := i.bases c x hx
  exact ⟨b, by simp [World.find, (i.mc _ _ hb).1, hb]⟩

omit i in
theorem Loose.find_kind (i : Loose w) {t : TypeId} {q : Ptr} (h : w.find t = some q) : w.kind q = some .cls := by
  unfold World.find at h
  split at h
  · exact (i.mc _ _ h).2
  · cases h

/-- the classes behind a list of bases -/
def behind (w : World) (l : List (TypeId × Caster)) : List Ptr := l.filterMap fun x => w.find x.1

omit i in
theorem declared_iff (d b : Ptr) : DeclaredBase w d b ↔ b ∈ behind w (w.cls d).bases := by
  unfold DeclaredBase baseClass baseClassCount behind
  rw [List.mem_filterMap]
  constructor
  · rintro ⟨k, hk, h⟩
    rw [dif_pos hk] at h
    exact ⟨_, List.getElem_mem hk, h⟩
  · rintro ⟨x, hx, h⟩
    obtain ⟨k, hk, rfl⟩ := List.mem_iff_getElem.1 hx
    exact ⟨k, hk, by rw [dif_pos hk]; exact h⟩

omit i in
theorem behind_cons {x : TypeId × Caster} {l : List (TypeId × Caster)} {q : Ptr} (h : w.find x.1 = some q) :
    behind w (x :: l) = q :: behind w l := by simp [behind, h]

/-- a list of bases split where the list of classes is split -/
theorem Loose.split {c q : Ptr} : ∀ {l : List (TypeId × Caster)} {pre post : List Ptr}, (∀ x ∈ l, x ∈ (w.cls c).bases) → behind w l = pre ++ q :: post →
    ∃ p t f r, l = p ++ (t, f) :: r ∧ w.find t = some q ∧ ∀ x ∈ p, ∀ q', w.find x.1 = some q' → q' ∈ pre := by
  intro l
  induction l with
  | nil => intro pre post _ h; simp [behind] at h
  | cons x l ih =>
    intro pre post hl h
    obtain ⟨q', hq⟩ := i.find (hl x (.head _))
    rw [behind_cons hq] at h
    cases pre with
    | nil =>
      simp at h
      exact ⟨[], x.1, x.2, l, rfl, h.1 ▸ hq, by simp⟩
    | cons y pre =>
      simp at h
      obtain ⟨p, t, f, r, e, h1, h2⟩ := ih (fun z hz => hl z (.tail _ hz)) h.2
      refine ⟨x :: p, t, f, r, by rw [e]; rfl, h1, fun z hz q'' hq'' => ?_⟩
      rcases List.mem_cons.1 hz with rfl | hz
      · rw [hq] at hq''; cases hq''; rw [h.1]; exact .head _
      · exact .tail _ (h2 z hz q'' hq'')

def toBool : Option (Option Unit) → Res Bool
  | some (some _) => .val true
  | some none => .val false
  | none => .diverge

def toPtr : Option (Option Ptr) → Res (Option Ptr)
  | some r => .val r
  | none => .diverge

theorem Loose.anyBase {f : Ptr → Res Bool} {g : Ptr → Option (Option Unit)} (h : ∀ q, f q = toBool (g q)) {c : Ptr} :
    ∀ l : List (TypeId × Caster), (∀ x ∈ l, x ∈ (w.cls c).bases) → World.anyBase w f l = toBool (Dfs.loop g (behind w l)) := by
  intro l
  induction l with
  | nil => intro _; rfl
  | cons x l ih =>
    intro hl
    obtain ⟨q, hq⟩ := i.find (hl x (.head _))
    rw [World.anyBase, behind_cons hq, hq, Dfs.loop]
    dsimp only
    rw [h q]
    have := ih fun z hz => hl z (.tail _ hz)
    rcases g q with _ | _ | _ <;> first | rfl | exact this

theorem Loose.firstBase {f : Ptr → Res (Option Ptr)} {g : Ptr → Option (Option Ptr)} (h : ∀ q, f q = toPtr (g q)) {c : Ptr} :
    ∀ l : List (TypeId × Caster), (∀ x ∈ l, x ∈ (w.cls c).bases) → World.firstBase w f l = toPtr (Dfs.loop g (behind w l)) := by
  intro l
  induction l with
  | nil => intro _; rfl
  | cons x l ih =>
    intro hl
    obtain ⟨q, hq⟩ := i.find (hl x (.head _))
    rw [World.firstBase, behind_cons hq, hq, Dfs.loop]
    dsimp only
    rw [h q]
    have := ih fun z hz => hl z (.tail _ hz)
    rcases g q with _ | _ | _ <;> first | rfl | exact this

def isTarget (b c : Ptr) : Option Unit := if b = c then some () else none

def methodOf (w : World) (n : Str) (c : Ptr) : Option Ptr :=
  match w.ownMethod c n with
  | .val r => r
  | _ => none

abbrev graph (w : World) (c : Ptr) : List Ptr := behind w (w.cls c).bases

theorem Loose.inheritedFromF (b : Ptr) (fuel : Nat) (c : Ptr) :
    w.inheritedFromF fuel c (some b) = toBool (Dfs.dfs (isTarget b) (graph w) fuel c) := by
  induction fuel generalizing c with
  | zero => rfl
  | succ n ih =>
    rw [World.inheritedFromF, Dfs.dfs]
    unfold isTarget
    split
    · rfl
    · exact i.anyBase ih _ fun _ h => h

theorem Loose.classMethodF {n : Str} (hn : n ≠ []) (fuel : Nat) (c : Ptr) :
    w.classMethodF fuel c n = toPtr (Dfs.dfs (methodOf w n) (graph w) fuel c) := by
  induction fuel generalizing c with
  | zero => rfl
  | succ k ih =>
    rw [World.classMethodF, Dfs.dfs, if_neg hn]
    obtain ⟨r, h1, _⟩ := ownMethod_spec w c n
    simp only [methodOf, h1]
    cases r with
    | some m => rfl
    | none => exact i.firstBase ih _ fun _ h => h

theorem Loose.classPropertyF {n : Str} (hn : n ≠ []) (fuel : Nat) (c : Ptr) :
    w.classPropertyF fuel c n = toPtr (Dfs.dfs (fun c => w.ownProperty c n) (graph w) fuel c) := by
  induction fuel generalizing c with
  | zero => rfl
  | succ k ih =>
    rw [World.classPropertyF, Dfs.dfs, if_neg hn]
    cases w.ownProperty c n with
    | some m => rfl
    | none => exact i.firstBase ih _ fun _ h => h

omit i in
theorem methodOf_iff {n : Str} {c m : Ptr} : methodOf w n c = some m ↔ OwnMethod w n c m := by
  obtain ⟨r, h1, h2⟩ := ownMethod_spec w c n
  simp only [methodOf, h1]
  exact h2 m

theorem Loose.ownProperty {n : Str} (hn : n ≠ []) {c m : Ptr} : w.ownProperty c n = some m ↔ OwnProperty w n c m := by
  unfold World.ownProperty OwnProperty
  constructor
  · intro h
    obtain ⟨it, h1, h2⟩ := Option.map_eq_some_iff.1 h
    obtain ⟨_, h3, h4⟩ := ((i.wf c .property).get_iff n it).1 h1
    exact ⟨it, h3, h4, h2⟩
  · rintro ⟨it, h1, h2, h3⟩
    rw [((i.wf c .property).get_iff n it).2 ⟨hn, h1, h2⟩]
    simp [h3]

variable {A : Type} {own : Ptr → Option A} {stop : Ptr → Prop} (hs : ∀ c, stop c ↔ own c ≠ none)

omit i in
include hs in
theorem walks_iff {d c : Ptr} : Walks w stop d c ↔ Dfs.Star own (graph w) d c := by
  constructor
  · intro h
    induction h with
    | refl => exact .refl _
    | step h1 h2 _ ih => exact .step (by simpa [hs] using h1) ((declared_iff _ _).1 h2) ih
  · intro h
    induction h with
    | refl => exact .refl _
    | step h1 h2 _ ih => exact .step (by simpa [hs] using h1) ((declared_iff _ _).2 h2) ih

omit i in
include hs in
theorem circle_iff {d : Ptr} : CircleAhead w stop d ↔ ∃ x, Dfs.Star own (graph w) d x ∧ Dfs.Circ own (graph w) x := by
  constructor
  · rintro ⟨c, m, h1, h2, h3, h4⟩
    exact ⟨c, (walks_iff hs).1 h1, by simpa [hs] using h2, m, (declared_iff _ _).1 h3, (walks_iff hs).1 h4⟩
  · rintro ⟨c, h1, h2, m, h3, h4⟩
    exact ⟨c, m, (walks_iff hs).2 h1, by simpa [hs] using h2, (declared_iff _ _).2 h3, (walks_iff hs).2 h4⟩

omit i in
theorem reaches_star {d c : Ptr} (h : Reaches w d c) : (∀ x, Dfs.Star own (graph w) d x → own x = none) → Dfs.Star own (graph w) d c := by
  induction h with
  | refl => exact fun _ => .refl _
  | step h1 _ ih =>
    intro h0
    have e := h0 _ (.refl _)
    exact .step e ((declared_iff _ _).1 h1) (ih fun x hx => h0 x (.step e ((declared_iff _ _).1 h1) hx))

omit i in
theorem star_reaches {d c : Ptr} (h : Dfs.Star own (graph w) d c) : Reaches w d c := by
  induction h with
  | refl => exact .refl _
  | step _ h _ ih => exact .step ((declared_iff _ _).2 h) ih

theorem Loose.star_lt {d c : Ptr} (hd : w.kind d = some .cls) (h : Dfs.Star own (graph w) d c) : c < w.next := by
  induction h with
  | refl => exact i.kind_lt _ _ hd
  | step _ h _ ih =>
    obtain ⟨x, _, hx⟩ := List.mem_filterMap.1 h
    exact ih (i.find_kind hx)

/-- a search over the hierarchy: it finds, or finds that there is nothing and no circle, or there is a circle and it never ends -/
theorem Loose.search {d : Ptr} (hd : w.kind d = some .cls) :
    (∃ a, (∀ n, w.next ≤ n → Dfs.dfs own (graph w) n d = some (some a)) ∧ Dfs.First own (graph w) d a) ∨
    ((∀ n, w.next ≤ n → Dfs.dfs own (graph w) n d = some none) ∧ (∀ c, Reaches w d c → own c = none) ∧
      ¬∃ x, Dfs.Star own (graph w) d x ∧ Dfs.Circ own (graph w) x) ∨
    ((∀ n, Dfs.dfs own (graph w) n d = none) ∧ ∃ x, Dfs.Star own (graph w) d x ∧ Dfs.Circ own (graph w) x) := by
  have hb : ∀ x, Dfs.Star own (graph w) d x → x < w.next := fun x hx => i.star_lt hd hx
  rcases e : Dfs.dfs own (graph w) w.next d with _ | _ | a
  · exact .inr (.inr ⟨Dfs.forever hb (Nat.le_refl _) e, Dfs.circle hb e⟩)
  · refine .inr (.inl ⟨fun n hn => Dfs.dfs_mono e hn, fun c hc => ?_, ?_⟩)
    · exact (Dfs.none_spec e (reaches_star hc fun x hx => (Dfs.none_spec e hx).1)).1
    · rintro ⟨x, h1, h2⟩
      obtain ⟨_, k, _, h3⟩ := Dfs.none_spec e h1
      exact Dfs.none_circ h3 h2
  · exact .inl ⟨a, fun n hn => Dfs.dfs_mono e hn, Dfs.some_spec e⟩

omit i hs in
theorem first_own {d : Ptr} {a : A} (h : Dfs.First own (graph w) d a) : ∃ x, Dfs.Star own (graph w) d x ∧ own x = some a := by
  induction h with
  | here h => exact ⟨_, .refl _, h⟩
  | there h e _ _ ih =>
    obtain ⟨x, h1, h2⟩ := ih
    exact ⟨x, .step h (by rw [e]; simp) h1, h2⟩

include hs in
/-- what a search over the hierarchy gives -/
theorem Loose.exact {d : Ptr} (hd : w.kind d = some .cls) {N : Nat} (hN : w.next ≤ N) :
    (∀ a, Dfs.dfs own (graph w) N d = some (some a) ↔ ∃ c, ComesTo w stop d c ∧ own c = some a) ∧
    (Dfs.dfs own (graph w) N d = some none ↔ (∀ c, Reaches w d c → ¬stop c) ∧ ¬CircleAhead w stop d) ∧
    (Dfs.dfs own (graph w) N d = none → (∀ n, Dfs.dfs own (graph w) n d = none) ∧ CircleAhead w stop d) := by
  have hno : ∀ {d : Ptr}, w.kind d = some .cls → (∀ c, Reaches w d c → ¬stop c) → ¬CircleAhead w stop d →
      ∀ n, w.next ≤ n → Dfs.dfs own (graph w) n d = some none := by
    intro d hd h1 h2
    rw [circle_iff hs] at h2
    rcases i.search (own := own) hd with ⟨a, _, h4⟩ | ⟨h3, _⟩ | ⟨_, h4⟩
    · obtain ⟨x, h5, h6⟩ := first_own h4
      exact absurd ((hs x).2 (by rw [h6]; simp)) (h1 x (star_reaches h5))
    · exact h3
    · exact absurd h4 h2
  refine ⟨fun a => ⟨fun h => ?_, fun h => ?_⟩, ⟨fun h => ?_, fun h => hno hd h.1 h.2 N hN⟩, fun h => ?_⟩
  · have h1 : ∀ n d, Dfs.dfs own (graph w) n d = some (some a) → ∃ c, ComesTo w stop d c ∧ own c = some a := by
      intro n
      induction n with
      | zero => exact nofun
      | succ n ih =>
        intro d h
        rw [Dfs.dfs] at h
        cases ho : own d with
        | some a' => rw [ho] at h; cases h; exact ⟨d, .here ((hs d).2 (by rw [ho]; simp)), ho⟩
        | none =>
          rw [ho] at h
          obtain ⟨pre, p, post, e, h1, h2⟩ := Dfs.loop_some h
          obtain ⟨c, h3, h4⟩ := ih p h2
          obtain ⟨p', t, f, r, e', h5, h6⟩ := i.split (fun _ h => h) e
          refine ⟨c, .base (by simp [hs, ho]) e' h5 (fun x hx q' hq => ?_) h3, h4⟩
          have h7 := h1 q' (h6 x hx q' hq)
          have h8 : ∀ x, Dfs.Star own (graph w) q' x → own x = none := fun x hx => (Dfs.none_spec h7 hx).1
          refine ⟨fun a hr => by simpa [hs] using h8 a (reaches_star hr h8), ?_⟩
          rw [circle_iff hs]
          rintro ⟨x, g1, g2⟩
          obtain ⟨_, k, _, g3⟩ := Dfs.none_spec h7 g1
          exact Dfs.none_circ g3 g2
    exact h1 N d h
  · obtain ⟨c, h1, h2⟩ := h
    have h3 : ∃ n, Dfs.dfs own (graph w) n d = some (some a) := by
      clear hN
      induction h1 with
      | here _ => exact ⟨1, by simp [Dfs.dfs, h2]⟩
      | @base d q c t f pre post g1 g2 g3 g4 _ ih =>
        obtain ⟨n, hn⟩ := ih (i.find_kind g3) h2
        refine ⟨max n w.next + 1, ?_⟩
        have ho : own d = none := by simpa [hs] using g1
        rw [Dfs.dfs, ho]
        have hq := Dfs.dfs_mono hn (Nat.le_max_left n w.next)
        have hb : graph w d = behind w pre ++ q :: behind w post := by
          simp [graph, behind, g2, g3]
        dsimp only
        rw [hb]
        have hp : ∀ q' ∈ behind w pre, Dfs.dfs own (graph w) (max n w.next) q' = some none := by
          intro q' hq'
          obtain ⟨x, hx, e⟩ := List.mem_filterMap.1 hq'
          obtain ⟨k1, k2⟩ := g4 x hx q' e
          exact hno (i.find_kind e) k1 k2 _ (Nat.le_max_right _ _)
        revert hp
        generalize behind w pre = l
        intro hp
        induction l with
        | nil => simp [Dfs.loop, hq]
        | cons y l ihl => simp [Dfs.loop, hp y (.head _), ihl fun z hz => hp z (.tail _ hz)]
    obtain ⟨n, hn⟩ := h3
    rcases i.search (own := own) hd with ⟨a', h4, _⟩ | ⟨h4, _⟩ | ⟨h4, _⟩
    · rw [h4 N hN]
      have h5 := h4 (max n w.next) (Nat.le_max_right _ _)
      rw [Dfs.dfs_mono hn (Nat.le_max_left _ _)] at h5
      exact h5.symm
    · have h5 := h4 (max n w.next) (Nat.le_max_right _ _)
      rw [Dfs.dfs_mono hn (Nat.le_max_left _ _)] at h5
      cases h5
    · rw [h4 n] at hn; cases hn
  · rcases i.search (own := own) hd with ⟨a', h4, _⟩ | ⟨_, h5, h6⟩ | ⟨h4, _⟩
    · rw [h4 N hN] at h; cases h
    · exact ⟨fun c hc => by simpa [hs] using h5 c hc, by rwa [circle_iff hs]⟩
    · rw [h4 N] at h; cases h
  · rcases i.search (own := own) hd with ⟨a', h4, _⟩ | ⟨h4, _⟩ | ⟨h4, h5⟩
    · rw [h4 N hN] at h; cases h
    · rw [h4 N hN] at h; cases h
    · exact ⟨h4, by rwa [circle_iff hs]⟩

omit hs in
theorem Loose.castF (b : Ptr) (fuel : Nat) : ∀ (c : Ptr) (a : Addr),
    (w.inheritedFromF fuel c (some b) = .val true → ∃ fs, LeftPath w c b fs ∧ w.castF fuel c (some b) a = .val (applyCasts fs a)) ∧
    (w.inheritedFromF fuel c (some b) = .val false → w.castF fuel c (some b) a = .val 0) ∧
    (w.inheritedFromF fuel c (some b) = .diverge → w.castF fuel c (some b) a = .diverge) := by
  induction fuel with
  | zero => exact fun c a => ⟨nofun, nofun, fun _ => rfl⟩
  | succ n ih =>
    intro c a
    rw [World.inheritedFromF, World.castF]
    split
    · rename_i e
      subst e
      exact ⟨fun _ => ⟨[], .refl _, rfl⟩, nofun, nofun⟩
    · rename_i e
      have noReach : ∀ q, w.inheritedFromF n q (some b) = .val false → ¬Reaches w q b := by
        intro q hq hr
        rw [i.inheritedFromF] at hq
        have h0 : Dfs.dfs (isTarget b) (graph w) n q = some none := by
          revert hq
          rcases Dfs.dfs (isTarget b) (graph w) n q with _ | _ | _ <;> intro hq <;> first | rfl | cases hq
        have := (Dfs.none_spec h0 (reaches_star hr fun x hx => (Dfs.none_spec h0 hx).1)).1
        simp [isTarget] at this
      have key : ∀ (pre l : List (TypeId × Caster)), (w.cls c).bases = pre ++ l →
          (∀ x ∈ pre, ∀ q, w.find x.1 = some q → ¬Reaches w q b) →
          (World.anyBase w (fun p => w.inheritedFromF n p (some b)) l = .val true → ∃ fs, LeftPath w c b fs ∧
            World.castBase w (fun p => w.inheritedFromF n p (some b)) (fun p a => w.castF n p (some b) a) a l = .val (some (applyCasts fs a))) ∧
          (World.anyBase w (fun p => w.inheritedFromF n p (some b)) l = .val false →
            World.castBase w (fun p => w.inheritedFromF n p (some b)) (fun p a => w.castF n p (some b) a) a l = .val none) ∧
          (World.anyBase w (fun p => w.inheritedFromF n p (some b)) l = .diverge →
            World.castBase w (fun p => w.inheritedFromF n p (some b)) (fun p a => w.castF n p (some b) a) a l = .diverge) := by
        intro pre l
        induction l generalizing pre with
        | nil => exact fun _ _ => ⟨nofun, fun _ => rfl, nofun⟩
        | cons x l ihl =>
          intro hl hp
          obtain ⟨q, hq⟩ := i.find (c := c) (x := x) (by rw [hl]; simp)
          have hrest := ihl (pre ++ [x]) (by rw [hl]; simp)
          simp only [World.anyBase, World.castBase, hq]
          rcases hi : w.inheritedFromF n q (some b) with v | _ | _ | _
          · cases v with
            | true =>
              obtain ⟨fs, h1, h2⟩ := (ih q (x.2 a)).1 hi
              refine ⟨fun _ => ⟨x.2 :: fs, .step (Ne.symm e) (t := x.1) hl hq hp h1, ?_⟩, nofun, nofun⟩
              dsimp only
              rw [h2]
              rfl
            | false =>
              refine hrest fun y hy q' hq' => ?_
              rcases List.mem_append.1 hy with hy | hy
              · exact hp y hy q' hq'
              · obtain rfl := List.mem_singleton.1 hy
                rw [hq] at hq'
                cases hq'
                exact noReach q hi
          · exact ⟨nofun, nofun, nofun⟩
          · exact ⟨nofun, nofun, nofun⟩
          · exact ⟨nofun, nofun, fun _ => rfl⟩
      obtain ⟨h1, h2, h3⟩ := key [] _ rfl (by simp)
      refine ⟨fun h => ?_, fun h => ?_, fun h => ?_⟩
      · obtain ⟨fs, h4, h5⟩ := h1 h
        exact ⟨fs, h4, by rw [h5]⟩
      · rw [h2 h]
      · rw [h3 h]

end
end World
end Rtti
