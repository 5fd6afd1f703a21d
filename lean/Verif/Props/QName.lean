import Verif.Lemmas.QName
import Verif.Examples.Worlds
/-
C21: qualified names.
-/
namespace Rtti.Props
open Rtti Spec World QName

/-- C21: after any history of definitions and name queries, asking a live item for its qualified name
    yields the spelled path from the global namespace (whatever was cached before), and every live item
    has exactly one path. -/
theorem C21_qualified_name {rank} {s : QName.State} (h : QReachable rank s) {p : Ptr} {k : Cat}
    (hk : s.world.kind p = some k) :
    ∃ path, HasPath s.world p path ∧ (∀ path', HasPath s.world p path' → path' = path) ∧
      (query s p).2 = .val (spell path) := by
  have q := QInv.reachable h
  have i := World.Inv.reachable q.reach
  have ho := OwnerLt.reachable q.reach
  obtain ⟨path, hp⟩ := HasPath.exists i ho p k hk
  have := i.kind_lt p k hk
  exact ⟨path, hp, fun _ h' => HasPath.unique ho h' hp,
    (qualifiedNameF_spec ho _ s.cache q.cache p k path hk hp (by simp [depth]; omega)).1⟩

/-- C21: the global namespace has the empty qualified name. -/
theorem C21_global {rank} {s : QName.State} (h : QReachable rank s) :
    (query s World.globalNs).2 = .val [] := by
  have q := QInv.reachable h
  obtain ⟨path, hp, hu, e⟩ := C21_qualified_name h (World.Inv.reachable q.reach).glob
  rw [show (World.globalNs) = 1 from rfl, e, ← hu [] .global]
  rfl

/-- C21: the path starts at one place only: `isGlobal` answers true for the global namespace and for no other item; it is a
    namespace called "global", a name no qualified name spells. -/
theorem C21_root {rank} {w : World} (h : Reachable rank w) : w.kind globalNs = some .nmspace ∧ w.name globalNs = "global".toList ∧
    ∀ p k, w.kind p = some k → (isGlobal w p = true ↔ p = globalNs) := by
  have g : Grows World.init w := by
    induction h with
    | init => exact .refl _
    | step op h hl _ _ ih => exact ih.trans ((World.Inv.reachable h).grows_step op hl)
    | missed o k n h ho hk ih => exact ih.trans ((World.Inv.reachable h).grows_missed o ho k hk n)
  have i := World.Inv.reachable h
  refine ⟨i.glob, g.name 1 .nmspace rfl, fun p k hk => ⟨fun hg => ?_, ?_⟩⟩
  · refine Classical.byContradiction fun hp => ?_
    obtain ⟨c, hc, _⟩ := i.owned p k hk hp
    simp [isGlobal, hc] at hg
  · rintro rfl
    have : w.owner 1 = none := g.owner 1 .nmspace rfl
    simp [isGlobal, globalNs, this]

example : isGlobal Ex.diamond 1 = true ∧ isGlobal Ex.diamond 5 = false ∧ Ex.diamond.kind 5 = some .cls := by decide

/-- C21: the qualified name of an item is the same on every later call. -/
theorem C21_stable {rank} {s s' : QName.State} (h : QReachable rank s) (h' : QReachable rank s')
    (g : Later rank s.world s'.world) {p : Ptr} {k : Cat} (hk : s.world.kind p = some k) :
    (query s' p).2 = (query s p).2 := by
  have q := QInv.reachable h
  have hg : Reachable rank s'.world ∧ Grows s.world s'.world := by
    clear h' hk
    generalize s'.world = w' at g ⊢
    induction g with
    | refl => exact ⟨q.reach, .refl _⟩
    | step op _ hl hu hd ih =>
      exact ⟨.step op ih.1 hl hu hd, ih.2.trans ((World.Inv.reachable ih.1).grows_step op hl)⟩
    | missed o k n _ ho hk ih =>
      exact ⟨.missed o k n ih.1 ho hk, ih.2.trans ((World.Inv.reachable ih.1).grows_missed o ho k hk n)⟩
  obtain ⟨path, hp, _, e⟩ := C21_qualified_name h hk
  obtain ⟨path', _, hu', e'⟩ := C21_qualified_name h' (hg.2.kind p k hk)
  rw [e, e', hu' path (HasPath.grows hg.2 (OwnerLt.reachable q.reach) hp k hk)]

/-- C21: different paths are spelled differently when no component contains ':'. -/
theorem C21_distinct {rank} {s : QName.State} (h : QReachable rank s) {p q : Ptr} {k k' : Cat}
    (hp : s.world.kind p = some k) (hq : s.world.kind q = some k') {a b : List Str}
    (ha : HasPath s.world p a) (hb : HasPath s.world q b) (ca : ∀ n ∈ a, ':' ∉ n) (cb : ∀ n ∈ b, ':' ∉ n)
    (e : (query s p).2 = (query s q).2) : a = b := by
  obtain ⟨a', _, hu, ea⟩ := C21_qualified_name h hp
  obtain ⟨b', _, hu', eb⟩ := C21_qualified_name h hq
  rw [ea, eb, ← hu a ha, ← hu' b hb] at e
  injection e with e
  exact spell_injective ca cb e

/-- path of names together with the category of each component -/
inductive HasKPath (w : World) : Ptr → List (Cat × Str) → Prop
  | global : HasKPath w World.globalNs []
  | member {o p : Ptr} {path : List (Cat × Str)} {k : Cat} : w.owner p = some o → w.kind p = some k →
      HasKPath w o path → HasKPath w p (path ++ [(k, w.name p)])

/-- C21: a path with the categories of its components identifies the item. -/
theorem C21_path_identifies {rank} {w : World} (h : Reachable rank w) {p q : Ptr}
    {a : List (Cat × Str)} (hp : HasKPath w p a) (hq : HasKPath w q a) : p = q := by
  have i := World.Inv.reachable h
  induction hp generalizing q with
  | global =>
    generalize hx : ([] : List (Cat × Str)) = x at hq
    cases hq with
    | global => rfl
    | member => simp at hx
  | @member o p path k ho hk _ ih =>
    generalize hx : path ++ [(k, w.name p)] = x at hq
    cases hq with
    | global => simp at hx
    | @member o' _ path' k' ho' hk' hp' =>
      obtain ⟨e1, e2⟩ := List.append_inj' hx rfl
      simp only [List.cons.injEq, Prod.mk.injEq, and_true] at e2
      obtain ⟨rfl, en⟩ := e2
      subst e1
      have := ih hp'
      subst this
      have hglob : w.owner 1 = none := (OwnerLt.reachable h).1
      have h1 : p ≠ 1 := by rintro rfl; rw [hglob] at ho; cases ho
      have h2 : q ≠ 1 := by rintro rfl; rw [hglob] at ho'; cases ho'
      obtain ⟨c, hc, hm⟩ := i.owned p k hk h1
      obtain ⟨c', hc', hm'⟩ := i.owned q k hk' h2
      rw [ho] at hc; rw [ho'] at hc'
      have e3 := Option.some.inj hc; have e4 := Option.some.inj hc'
      subst e3; subst e4
      have hnd := (i.wf o k).nodup
      have : (⟨p, w.name p⟩ : Item) = ⟨q, w.name q⟩ := by
        obtain ⟨x, hx, ex⟩ := List.mem_iff_getElem.1 hm
        obtain ⟨y, hy, ey⟩ := List.mem_iff_getElem.1 hm'
        rw [List.Nodup, List.pairwise_iff_getElem] at hnd
        have hx' : x < ((w.cont o k).items.map (·.name)).length := by simpa using hx
        have hy' : y < ((w.cont o k).items.map (·.name)).length := by simpa using hy
        rcases Nat.lt_trichotomy x y with hlt | heq | hgt
        · refine absurd ?_ (hnd x y hx' hy' hlt); simp [ex, ey, en]
        · subst heq; rw [← ex, ← ey]
        · refine absurd ?_ (hnd y x hy' hx' hgt); simp [ex, ey, en]
      injection this

/-- The names alone do not: a namespace and a class of one name give two methods of one category with
    the same qualified name. -/
theorem C21_collision_across_categories : ∃ (s : QName.State) (p q : Ptr), QReachable id s ∧ p ≠ q ∧
    s.world.kind p = some .method ∧ s.world.kind q = some .method ∧
    (query s p).2 = (query s q).2 ∧ (query s p).2 = .val [':', ':', 'A', ':', ':', 'f', '(', ')'] := by
  have hr : ∀ (ops : List World.Op) (s : QName.State), QReachable id s → okRun id s.world ops = true →
      QReachable id ⟨s.world.run ops, s.cache⟩ := by
    intro ops
    induction ops with
    | nil => exact fun s h _ => h
    | cons op ops ih =>
      intro s h ho
      simp only [okRun, Bool.and_eq_true] at ho
      obtain ⟨⟨h1, h2⟩, h3⟩ := ho
      refine ih _ (.api op h ?_ ?_ ?_) h3
      · cases op <;> simp_all [Legal]
      · intro e; rw [e] at h2; cases h2
      · intro e; rw [e] at h2; cases h2
  exact ⟨_, 4, 5, hr [.registerType 1, .createNamespace 1 ['A'], .createClass 1 ['A'] 1,
    .createMethod 2 ['f', '(', ')'] true, .createMethod 3 ['f', '(', ')'] true] _ .init (by decide),
    by decide, by decide, by decide, by decide, by decide⟩

example : (query ⟨Ex.diamond, fun _ => []⟩ 6).2 = .val [':', ':', 'B', ':', ':', 'f', '(', ')'] ∧
    HasPath Ex.diamond 6 [['B'], ['f', '(', ')']] := by
  refine ⟨by decide, ?_⟩
  exact .member (path := [['B']]) (o := 2) rfl (.member (path := []) (o := 1) rfl .global)

end Rtti.Props
