import Verif.Spec.QName
import Verif.Lemmas.Define
namespace Rtti
open Spec World

/-- owners are older than what they own -/
def OwnerLt (w : World) : Prop :=
  w.owner 1 = none ∧ ∀ p k, w.kind p = some k → p ≠ 1 → ∃ c k', w.owner p = some c ∧ c < p ∧ w.kind c = some k'

theorem OwnerLt.of_eq {w w' : World} (h : OwnerLt w) (hk : w'.kind = w.kind)
    (ho : w'.owner = w.owner) : OwnerLt w' := by
  unfold OwnerLt; rw [hk, ho]; exact h

theorem OwnerLt.getOrCreate {rank} {w : World} (i : World.Inv rank w) (h : OwnerLt w) (o : Ptr)
    (ho : w.isContainer o = true) (k : Cat) (n : Str) (t : TypeId) (look : World → Res (Option Ptr))
    (stored : World → Ptr → World)
    (hst : stored ((w.alloc k n o t).addItem o k ⟨w.next, n⟩).1 w.next = w.created o k n t) :
    OwnerLt (w.getOrCreate o k n t look stored).1 := by
  have hok : ∃ k', w.kind o = some k' := by
    rcases (isContainer_iff w o).1 ho with h | h <;> exact ⟨_, h⟩
  obtain ⟨k0, hk0⟩ := hok
  have hlt := (i.kind_lt o k0 hk0).2
  have h1 : (1 : Nat) ≠ w.next := by have := i.next_ge; omega
  rcases getOrCreate_cases w o k n t look stored hst with ⟨_, e⟩ | ⟨_, _, e⟩ | ⟨_, _, e⟩
  · rw [e]; exact h
  · rw [e]
    constructor
    · simp only; rw [created_owner, upd_ne _ _ h1]; exact h.1
    · intro p k' hp hp1
      simp only at hp ⊢
      rw [created_kind] at hp
      rw [created_owner, created_kind]
      by_cases ep : p = w.next
      · subst ep
        exact ⟨o, k0, by simp, hlt, by rw [upd_ne _ _ (by omega)]; exact hk0⟩
      · rw [upd_ne _ _ ep] at hp
        obtain ⟨c, k2, h2, h3, h4⟩ := h.2 p k' hp hp1
        exact ⟨c, k2, by rw [upd_ne _ _ ep]; exact h2, h3,
          by rw [upd_ne _ _ (i.kind_ne_next h4)]; exact h4⟩
  · rw [e]
    constructor
    · simp only [refusedWorld, addItem, free, alloc, upd_ne _ _ h1]; exact h.1
    · intro p k' hp hp1
      simp only at hp ⊢
      rw [refused_kind i] at hp ⊢
      have ep := i.kind_ne_next hp
      obtain ⟨c, k2, h2, h3, h4⟩ := h.2 p k' hp hp1
      exact ⟨c, k2, by simp [refusedWorld, addItem, free, alloc, upd_ne _ _ ep, h2], h3, h4⟩

theorem OwnerLt.step {rank} {w : World} (i : World.Inv rank w) (h : OwnerLt w) (op : World.Op) :
    OwnerLt (w.step op).1 := by
  cases op with
  | registerType t => simp only [World.step]; split <;> exact h
  | createNamespace o n =>
    simp only [World.step, createNamespace]
    cases hc : w.isContainer o with
    | true => exact h.getOrCreate i o hc _ _ _ _ _ (stored_id w o (by decide) n 0)
    | false => simp [World.getOrCreate, getItem_ub hc, h]
  | createEnum o n =>
    simp only [World.step, createEnum]
    cases hc : w.isContainer o with
    | true => exact h.getOrCreate i o hc _ _ _ _ _ (stored_id w o (by decide) n 0)
    | false => simp [World.getOrCreate, getItem_ub hc, h]
  | createClass o n t =>
    simp only [World.step, createClass]
    cases hc : w.isContainer o with
    | false => simp [getItem_ub hc, h]
    | true =>
      split
      · split
        · exact h
        · split
          · exact h
          · exact h.getOrCreate i o hc _ _ _ _ _ (stored_cls w o n t)
      · exact h
  | createMethod o s b =>
    simp only [World.step]
    split
    · rename_i hc
      simp only [createMethod]
      split
      · exact h
      · exact h.getOrCreate i o hc _ _ _ _ _ (stored_id w o (by decide) s 0)
    · exact h
  | createProperty o n b =>
    simp only [World.step]
    split
    · rename_i hc
      simp only [createProperty]
      split
      · exact h
      · exact h.getOrCreate i o hc _ _ _ _ _ (stored_id w o (by decide) n 0)
    · exact h
  | createConstructor o s b =>
    simp only [World.step]
    split
    · rename_i hc
      simp only [createConstructor]
      split
      · exact h
      · exact h.getOrCreate i o hc _ _ _ _ _ (stored_id w o (by decide) s 0)
    · exact h
  | addBase this t c =>
    simp only [World.step]
    split
    · rename_i hk
      have : OwnerLt (w.addBaseClass this t c).1 := by
        rcases addBaseClass_eq i this hk t c with ⟨_, e⟩ | ⟨_, _, e⟩ | ⟨_, _, _, _, e⟩
        · rw [e]; exact h
        · rw [e]; exact h
        · rw [e]; exact h
      split <;> (rename_i h; rw [h] at this; exact this)
    · exact h

theorem OwnerLt.init : OwnerLt World.init := by
  constructor
  · rfl
  · intro p k h hp
    have h' : (if p = 1 then some Cat.nmspace else none) = some k := h
    rw [if_neg hp] at h'; cases h'

theorem OwnerLt.reachable {rank} {w : World} (h : Reachable rank w) : OwnerLt w := by
  induction h with
  | init => exact .init
  | step op hr _ _ _ ih => exact ih.step (World.Inv.reachable hr) op
  | missed o k n hr ho hk ih =>
    exact ih.getOrCreate (World.Inv.reachable hr) o ho _ _ _ _ _ (stored_id _ o (by rcases hk with rfl | rfl <;> decide) n 0)

theorem HasPath.exists {rank} {w : World} (_ : World.Inv rank w) (h : OwnerLt w) (p : Ptr) :
    ∀ k, w.kind p = some k → ∃ path, HasPath w p path := by
  induction p using Nat.strongRecOn with
  | ind p ih =>
    intro k hk
    by_cases e : p = 1
    · subst e; exact ⟨[], .global⟩
    · obtain ⟨c, k', h1, h2, h3⟩ := h.2 p k hk e
      obtain ⟨path, hp⟩ := ih c h2 k' h3
      exact ⟨_, .member h1 hp⟩

theorem HasPath.unique {w : World} (h : OwnerLt w) {p : Ptr} {a b : List Str} (ha : HasPath w p a)
    (hb : HasPath w p b) : a = b := by
  induction ha generalizing b with
  | global =>
    cases hb with
    | global => rfl
    | member ho _ => have := h.1; rw [show (1 : Nat) = World.globalNs from rfl, ho] at this; cases this
  | member ho _ ih =>
    cases hb with
    | global => have := h.1; rw [show (1 : Nat) = World.globalNs from rfl, ho] at this; cases this
    | member ho' hp' =>
      rw [ho] at ho'
      have e := Option.some.inj ho'
      subst e
      rw [ih hp']

theorem HasPath.grows {w w' : World} (g : Grows w w') (h : OwnerLt w) {p : Ptr} {a : List Str}
    (ha : HasPath w p a) : ∀ k, w.kind p = some k → HasPath w' p a := by
  induction ha with
  | global => intro k _; exact .global
  | @member o p path ho hp ih =>
    intro k hk
    have hp1 : p ≠ 1 := by rintro rfl; rw [h.1] at ho; cases ho
    obtain ⟨c, k', h1, _, h3⟩ := h.2 p k hk hp1
    rw [ho] at h1
    have e := Option.some.inj h1
    subst e
    rw [← g.name p k hk]
    exact .member (by rw [g.owner p k hk]; exact ho) (ih k' h3)

namespace QName

/-- every cached name is right -/
def CacheOk (w : World) (cache : Ptr → Str) : Prop :=
  ∀ p, cache p = [] ∨ ∃ k path, w.kind p = some k ∧ HasPath w p path ∧ cache p = spell path

theorem spell_append (a : List Str) (n : Str) : spell (a ++ [n]) = spell a ++ [':', ':'] ++ n := by
  simp [spell]

theorem qualifiedNameF_spec {w : World} (h : OwnerLt w) (fuel : Nat) :
    ∀ cache, CacheOk w cache → ∀ p k path, w.kind p = some k → HasPath w p path → p < fuel →
      (qualifiedNameF w fuel cache p).2 = .val (spell path) ∧ CacheOk w (qualifiedNameF w fuel cache p).1 := by
  induction fuel with
  | zero => intro _ _ p _ _ _ _ hp; omega
  | succ n ih =>
    intro cache hc p k path hk hp hlt
    unfold qualifiedNameF
    by_cases he : cache p = []
    · rw [if_pos he]
      cases hp with
      | global =>
        have h1 : w.owner World.globalNs = none := h.1
        rw [h1]
        refine ⟨rfl, ?_⟩
        intro q
        dsimp only
        by_cases e : q = World.globalNs
        · subst e; simp
        · rw [upd_ne _ _ e]; exact hc q
      | @member o _ path ho hp' =>
        rw [ho]
        dsimp only
        have hp1 : p ≠ 1 := by rintro rfl; rw [h.1] at ho; cases ho
        obtain ⟨c, k', h1, h2, h3⟩ := h.2 p k hk hp1
        rw [ho] at h1
        have e := Option.some.inj h1
        subst e
        obtain ⟨a, b⟩ := ih cache hc o k' path h3 hp' (by omega)
        generalize qualifiedNameF w n cache o = r at a b ⊢
        obtain ⟨c', r'⟩ := r
        simp only at a b
        subst a
        refine ⟨by rw [spell_append], ?_⟩
        intro q
        simp only
        by_cases e : q = p
        · subst e
          right
          exact ⟨k, _, hk, .member ho hp', by rw [upd_same, spell_append]⟩
        · rw [upd_ne _ _ e]; exact b q
    · rw [if_neg he]
      rcases hc p with e | ⟨_, path', _, hp', e⟩
      · exact absurd e he
      · exact ⟨by rw [e, HasPath.unique h hp hp'], hc⟩

structure QInv (rank : TypeId → Nat) (s : State) : Prop where
  reach : Reachable rank s.world
  cache : CacheOk s.world s.cache

theorem QInv.reachable {rank} {s : State} (h : QReachable rank s) : QInv rank s := by
  induction h with
  | init => exact ⟨.init, fun p => .inl rfl⟩
  | @api s op _ hl hu hd ih =>
    have i := World.Inv.reachable ih.reach
    have g := i.grows_step op hl
    refine ⟨.step op ih.reach hl hu hd, ?_⟩
    intro p
    rcases ih.cache p with e | ⟨k, path, hk, hp, e⟩
    · exact .inl e
    · right
      exact ⟨k, path, g.kind p k hk, HasPath.grows g (OwnerLt.reachable ih.reach) hp k hk, e⟩
  | @missed s o k n _ ho hk ih =>
    have i := World.Inv.reachable ih.reach
    have g := i.grows_missed o ho k hk n
    refine ⟨.missed o k n ih.reach ho hk, ?_⟩
    intro p
    rcases ih.cache p with e | ⟨k, path, hk, hp, e⟩
    · exact .inl e
    · right
      exact ⟨k, path, g.kind p k hk, HasPath.grows g (OwnerLt.reachable ih.reach) hp k hk, e⟩
  | @query s p k _ hk ih =>
    have i := World.Inv.reachable ih.reach
    have ho := OwnerLt.reachable ih.reach
    obtain ⟨path, hp⟩ := HasPath.exists i ho p k hk
    refine ⟨ih.reach, ?_⟩
    have := i.kind_lt p k hk
    exact (qualifiedNameF_spec ho _ s.cache ih.cache p k path hk hp (by simp [depth]; omega)).2

end QName

theorem spell_injective {a b : List Str} (ha : ∀ n ∈ a, ':' ∉ n) (hb : ∀ n ∈ b, ':' ∉ n)
    (h : spell a = spell b) : a = b := by
  have key : ∀ {x y r s : Str}, ':' ∉ x → ':' ∉ y → (r = [] ∨ ∃ r', r = ':' :: r') →
      (s = [] ∨ ∃ s', s = ':' :: s') → x ++ r = y ++ s → x = y ∧ r = s := by
    intro x
    induction x with
    | nil =>
      intro y r s _ hy hr hs e
      cases y with
      | nil => exact ⟨rfl, e⟩
      | cons c y =>
        rcases hr with rfl | ⟨r', rfl⟩
        · cases e
        · simp only [List.nil_append, List.cons_append, List.cons.injEq] at e
          exact absurd (by rw [e.1]; simp) hy
    | cons c x ih =>
      intro y r s hx hy hr hs e
      cases y with
      | nil =>
        rcases hs with rfl | ⟨s', rfl⟩
        · cases e
        · simp only [List.nil_append, List.cons_append, List.cons.injEq] at e
          exact absurd (by rw [e.1]; simp) hx
      | cons d y =>
        simp only [List.cons_append, List.cons.injEq] at e
        simp only [List.mem_cons, not_or] at hx hy
        obtain ⟨h1, h2⟩ := ih hx.2 hy.2 hr hs e.2
        exact ⟨by rw [e.1, h1], h2⟩
  have hstart : ∀ l : List Str, spell l = [] ∨ ∃ r', spell l = ':' :: r' := by
    intro l
    cases l with
    | nil => exact .inl rfl
    | cons x l => exact .inr ⟨':' :: (x ++ spell l), by simp [spell]⟩
  induction a generalizing b with
  | nil =>
    cases b with
    | nil => rfl
    | cons y b => simp [spell] at h
  | cons x a ih =>
    cases b with
    | nil => simp [spell] at h
    | cons y b =>
      have h' : x ++ spell a = y ++ spell b := by simpa [spell] using h
      obtain ⟨e1, e2⟩ := key (ha x (by simp)) (hb y (by simp)) (hstart a) (hstart b) h'
      rw [e1, ih (fun n hn => ha n (by simp [hn])) (fun n hn => hb n (by simp [hn])) e2]

end Rtti
