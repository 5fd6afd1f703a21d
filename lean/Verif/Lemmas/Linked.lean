import Verif.Spec.Linked
import Verif.Lemmas.Define
set_option autoImplicit false
namespace Rtti
open Spec
namespace World

/-- where the items of a list come from -/
theorem Inv.getOrCreate_mem {rank : TypeId → Nat} {w : World} (i : Inv rank w) (o : Ptr) (ho : w.isContainer o = true)
    (k : Cat) (n : Str) (t : TypeId) (look : World → Res (Option Ptr)) (stored : World → Ptr → World)
    (hst : stored ((w.alloc k n o t).addItem o k ⟨w.next, n⟩).1 w.next = w.created o k n t) {c : Ptr} {k' : Cat} {x : Item}
    (hx : x ∈ ((w.getOrCreate o k n t look stored).1.cont c k').items) :
    x ∈ (w.cont c k').items ∨
      (c = o ∧ k' = k ∧ x = ⟨w.next, n⟩ ∧ look w = .val none ∧ (w.getOrCreate o k n t look stored).2 = .val (some w.next)) := by
  rcases getOrCreate_cases w o k n t look stored hst with ⟨_, h⟩ | ⟨h0, h1, h⟩ | ⟨_, h1, h⟩
  · rw [h] at hx; exact .inl hx
  · rw [h] at hx
    simp only at hx
    rw [(i.created_facts o ho k n t h1).1] at hx
    split at hx
    · rename_i hc
      rcases List.mem_append.1 hx with hx | hx
      · rw [hc.1, hc.2]; exact .inl hx
      · simp only [List.mem_singleton] at hx
        exact .inr ⟨hc.1, hc.2, hx, h0, by rw [h]⟩
    · split at hx
      · cases hx
      · exact .inl hx
  · rw [h] at hx
    simp only at hx
    have h2 := i.refused o ho k n t h1
    by_cases hc : c = w.next
    · have := (h2.1.items c k' x hx).1
      have hk : (w.refusedWorld o k n t).kind c = none := by rw [refused_kind i, hc, i.kind_next]
      rw [isContainer_iff] at this
      rcases this with this | this <;> (have e := this.symm.trans hk; cases e)
    · have := h2.2 c k' hc
      rw [refusedWorld, this] at hx
      exact .inl hx

/-- what a call adds to -/
def Op.target : Op → Option (Ptr × Cat × Str)
  | .registerType _ => none
  | .createNamespace o n => some (o, .nmspace, n)
  | .createClass o n _ => some (o, .cls, n)
  | .createEnum o n => some (o, .enum, n)
  | .createMethod o s _ => some (o, .method, s)
  | .createProperty o n _ => some (o, .property, n)
  | .createConstructor o s _ => some (o, .constructor, s)
  | .addBase _ _ _ => none

/-- the look-up paired with it -/
def Op.before (w : World) : Op → Prop
  | .createMethod o s _ => w.getMethod o s = .val none
  | .createProperty o n _ => w.getProperty o n = .val none
  | .createConstructor o s _ => w.getConstructor o s = .val none
  | _ => True

theorem Inv.step_mem {rank : TypeId → Nat} {w : World} (i : Inv rank w) (op : Op) {c : Ptr} {k : Cat} {x : Item}
    (hx : x ∈ ((w.step op).1.cont c k).items) :
    x ∈ (w.cont c k).items ∨
      (op.target = some (c, k, x.name) ∧ x.ptr = w.next ∧ (w.step op).2 = .val (some w.next) ∧ op.before w) := by
  cases op with
  | registerType t =>
    left
    simp only [World.step] at hx
    split at hx <;> exact hx
  | createNamespace o n =>
    simp only [World.step, createNamespace] at hx ⊢
    cases hc : w.isContainer o with
    | true =>
      rcases i.getOrCreate_mem o hc _ _ _ _ _ (stored_id w o (by decide) n 0) hx with h | ⟨rfl, rfl, rfl, _, h⟩
      · exact .inl h
      · exact .inr ⟨rfl, rfl, h, trivial⟩
    | false => left; simpa [World.getOrCreate, getItem_ub hc] using hx
  | createEnum o n =>
    simp only [World.step, createEnum] at hx ⊢
    cases hc : w.isContainer o with
    | true =>
      rcases i.getOrCreate_mem o hc _ _ _ _ _ (stored_id w o (by decide) n 0) hx with h | ⟨rfl, rfl, rfl, _, h⟩
      · exact .inl h
      · exact .inr ⟨rfl, rfl, h, trivial⟩
    | false => left; simpa [World.getOrCreate, getItem_ub hc] using hx
  | createClass o n t =>
    simp only [World.step, createClass] at hx ⊢
    cases hc : w.isContainer o with
    | false => left; simpa [getItem_ub hc] using hx
    | true =>
      split at hx
      · split at hx
        · exact .inl hx
        · rename_i hg hv
          split at hx
          · exact .inl hx
          · rename_i hm
            rcases i.getOrCreate_mem o hc _ _ _ _ _ (stored_cls w o n t) hx with h | ⟨rfl, rfl, rfl, _, h⟩
            · exact .inl h
            · refine .inr ⟨rfl, rfl, ?_, trivial⟩
              simp only [if_neg hv, if_neg hm]
              exact h
      · exact .inl hx
  | createMethod o s b =>
    simp only [World.step] at hx ⊢
    split at hx
    · rename_i hc
      rw [if_pos hc]
      simp only [createMethod] at hx ⊢
      split at hx
      · exact .inl hx
      · rename_i hb
        rw [if_neg hb]
        rcases i.getOrCreate_mem o hc _ _ _ _ _ (stored_id w o (by decide) s 0) hx with h | ⟨rfl, rfl, rfl, h0, h⟩
        · exact .inl h
        · exact .inr ⟨rfl, rfl, h, h0⟩
    · exact .inl hx
  | createProperty o s b =>
    simp only [World.step] at hx ⊢
    split at hx
    · rename_i hc
      rw [if_pos hc]
      simp only [createProperty] at hx ⊢
      split at hx
      · exact .inl hx
      · rename_i hb
        rw [if_neg hb]
        rcases i.getOrCreate_mem o hc _ _ _ _ _ (stored_id w o (by decide) s 0) hx with h | ⟨rfl, rfl, rfl, h0, h⟩
        · exact .inl h
        · exact .inr ⟨rfl, rfl, h, h0⟩
    · exact .inl hx
  | createConstructor o s b =>
    simp only [World.step] at hx ⊢
    split at hx
    · rename_i hc
      rw [if_pos hc]
      simp only [createConstructor] at hx ⊢
      split at hx
      · exact .inl hx
      · rename_i hb
        rw [if_neg hb]
        rcases i.getOrCreate_mem o hc _ _ _ _ _ (stored_id w o (by decide) s 0) hx with h | ⟨rfl, rfl, rfl, h0, h⟩
        · exact .inl h
        · exact .inr ⟨rfl, rfl, h, h0⟩
    · exact .inl hx
  | addBase this t cst =>
    left
    simp only [World.step] at hx
    split at hx
    · rename_i hk
      have e : (w.addBaseClass this t cst).1.cont = w.cont := by
        rcases addBaseClass_eq i this hk t cst with ⟨_, e⟩ | ⟨_, _, e⟩ | ⟨_, _, _, _, e⟩ <;> rw [e]
      split at hx <;> (rename_i h; rw [h] at e; simp only at e hx; rw [e] at hx; exact hx)
    · exact hx

end World

namespace Val
variable {rank : TypeId → Nat} {S : RType → Str}

theorem Linked.step_w (l : Linked) (d : Def) : (l.step S d).1.w = (l.w.step (d.op S)).1 ∧ (l.step S d).2 = (l.w.step (d.op S)).2 := by
  unfold Linked.step; dsimp only; split <;> exact ⟨rfl, rfl⟩

theorem Program.reachable {h : List Def} {l : Linked} (a : Program rank S h l) : Reachable rank l.w := by
  induction a with
  | nil => exact .init
  | snoc h l d _ hl hu hd ih =>
    rw [(l.step_w d).1]
    rw [(l.step_w d).2] at hu hd
    exact .step _ ih hl hu hd

theorem created_next (w : World) : created w (.val (some w.next)) = some w.next := by simp [created]

theorem created_some {w : World} {r : Res (Option Ptr)} {p : Ptr} (h : created w r = some p) : p = w.next ∧ r = .val (some w.next) := by
  unfold created at h
  split at h
  · split at h
    · rename_i e; cases h; exact ⟨e, by rw [e]⟩
    · cases h
  · cases h

/-- older objects keep their invokers -/
theorem Linked.step_old (l : Linked) (d : Def) {p : Ptr} (hp : p ≠ l.w.next) :
    (l.step S d).1.fn p = l.fn p ∧ (l.step S d).1.pr p = l.pr p := by
  unfold Linked.step
  dsimp only
  split
  · rename_i f q h
    obtain ⟨rfl, _⟩ := created_some h
    exact ⟨upd_ne _ _ hp, rfl⟩
  · rename_i f q h
    obtain ⟨rfl, _⟩ := created_some h
    exact ⟨upd_ne _ _ hp, rfl⟩
  · rename_i f q h
    obtain ⟨rfl, _⟩ := created_some h
    exact ⟨rfl, upd_ne _ _ hp⟩
  · exact ⟨rfl, rfl⟩

theorem DefinedMethod.snoc {h : List Def} {o : Ptr} {n : Str} {f : Fn} (a : DefinedMethod rank S h o n f) (d : Def) :
    DefinedMethod rank S (h ++ [d]) o n f := by
  obtain ⟨pre, post, l, e, h1, h2⟩ := a
  exact ⟨pre, post ++ [d], l, by rw [e]; simp, h1, h2⟩

theorem DefinedProperty.snoc {h : List Def} {o : Ptr} {n : Str} {f : Property} (a : DefinedProperty rank S h o n f) (d : Def) :
    DefinedProperty rank S (h ++ [d]) o n f := by
  obtain ⟨pre, post, l, e, h1, h2⟩ := a
  exact ⟨pre, post ++ [d], l, by rw [e]; simp, h1, h2⟩

/-- an item of a list is older than the next object -/
theorem item_ne_next {w : World} (i : World.Inv rank w) {c : Ptr} {k : Cat} {x : Item} (hx : x ∈ (w.cont c k).items) : x.ptr ≠ w.next :=
  i.kind_ne_next (i.items c k x hx).2.1

theorem Program.method {h : List Def} {l : Linked} (a : Program rank S h l) {o : Ptr} {x : Item} (hx : x ∈ (l.w.cont o .method).items) :
    ∃ n f, DefinedMethod rank S h o n f ∧ x.name = f.signature S n ∧ l.fn x.ptr = some f := by
  induction a with
  | nil => cases hx
  | snoc h l d a hl hu hd ih =>
    rw [(l.step_w d).1] at hx
    have i := World.Inv.reachable a.reachable
    rcases i.step_mem (d.op S) hx with hx | ⟨ht, hp, hr, hb⟩
    · obtain ⟨n, f, h1, h2, h3⟩ := ih hx
      exact ⟨n, f, h1.snoc d, h2, by rw [(l.step_old d (item_ne_next i hx)).1]; exact h3⟩
    · cases d with
      | method o' n f =>
        simp only [Def.op, World.Op.target, Option.some.injEq, Prod.mk.injEq, true_and] at ht
        obtain ⟨rfl, ht⟩ := ht
        refine ⟨n, f, ⟨h, [], l, rfl, a, hb⟩, ht.symm, ?_⟩
        unfold Linked.step
        dsimp only
        rw [hr, created_next, hp]
        simp
      | _ => simp [Def.op, World.Op.target] at ht

theorem Program.property {h : List Def} {l : Linked} (a : Program rank S h l) {o : Ptr} {x : Item} (hx : x ∈ (l.w.cont o .property).items) :
    ∃ p, DefinedProperty rank S h o x.name p ∧ l.pr x.ptr = some p := by
  induction a with
  | nil => cases hx
  | snoc h l d a hl hu hd ih =>
    rw [(l.step_w d).1] at hx
    have i := World.Inv.reachable a.reachable
    rcases i.step_mem (d.op S) hx with hx | ⟨ht, hp, hr, hb⟩
    · obtain ⟨f, h1, h3⟩ := ih hx
      exact ⟨f, h1.snoc d, by rw [(l.step_old d (item_ne_next i hx)).2]; exact h3⟩
    · cases d with
      | property o' n f =>
        simp only [Def.op, World.Op.target, Option.some.injEq, Prod.mk.injEq, true_and] at ht
        obtain ⟨rfl, rfl⟩ := ht
        refine ⟨f, ⟨h, [], l, rfl, a, hb⟩, ?_⟩
        unfold Linked.step
        dsimp only
        rw [hr, created_next, hp]
        simp
      | _ => simp [Def.op, World.Op.target] at ht

theorem DefinedCtor.snoc {h : List Def} {o : Ptr} {c : CtorDef} (a : DefinedCtor rank S h o c) (d : Def) : DefinedCtor rank S (h ++ [d]) o c := by
  obtain ⟨pre, post, l, e, h1, h2⟩ := a
  exact ⟨pre, post ++ [d], l, by rw [e]; simp, h1, h2⟩

theorem Program.ctor {h : List Def} {l : Linked} (a : Program rank S h l) {o : Ptr} {x : Item} (hx : x ∈ (l.w.cont o .constructor).items) :
    ∃ c, DefinedCtor rank S h o c ∧ x.name = ctorSignature (c.ctor S) ∧ l.fn x.ptr = some c.asFn := by
  induction a with
  | nil => cases hx
  | snoc h l d a hl hu hd ih =>
    rw [(l.step_w d).1] at hx
    have i := World.Inv.reachable a.reachable
    rcases i.step_mem (d.op S) hx with hx | ⟨ht, hp, hr, hb⟩
    · obtain ⟨c, h1, h2, h3⟩ := ih hx
      exact ⟨c, h1.snoc d, h2, by rw [(l.step_old d (item_ne_next i hx)).1]; exact h3⟩
    · cases d with
      | ctor o' c =>
        simp only [Def.op, World.Op.target, Option.some.injEq, Prod.mk.injEq, true_and] at ht
        obtain ⟨rfl, ht⟩ := ht
        refine ⟨c, ⟨h, [], l, rfl, a, hb⟩, ht.symm, ?_⟩
        unfold Linked.step
        dsimp only
        rw [hr, created_next, hp]
        simp
      | _ => simp [Def.op, World.Op.target] at ht

/-- a program goes on -/
theorem Program.split {h : List Def} {l : Linked} (a : Program rank S h l) {pre post : List Def} (e : h = pre ++ post) :
    ∃ l0, Program rank S pre l0 ∧ Later rank l0.w l.w ∧ (∀ p k, l0.w.kind p = some k → l.fn p = l0.fn p ∧ l.pr p = l0.pr p) := by
  induction a generalizing post with
  | nil =>
    cases pre with
    | nil => exact ⟨_, .nil, .refl, fun _ _ _ => ⟨rfl, rfl⟩⟩
    | cons => cases e
  | snoc h l d a hl hu hd ih =>
    rcases List.eq_nil_or_concat post with rfl | ⟨post', d', rfl⟩
    · simp only [List.append_nil] at e
      subst e
      exact ⟨_, .snoc h l d a hl hu hd, .refl, fun _ _ _ => ⟨rfl, rfl⟩⟩
    · rw [List.concat_eq_append, ← List.append_assoc] at e
      have e1 := (List.append_inj' e rfl).1
      obtain ⟨l0, h1, h2, h3⟩ := ih e1
      rw [(l.step_w d).2] at hu hd
      refine ⟨l0, h1, ?_, fun p k hk => ?_⟩
      · rw [(l.step_w d).1]; exact .step _ h2 hl hu hd
      · have i := World.Inv.reachable a.reachable
        have hp : p ≠ l.w.next := by
          have : ∀ {w w' : World}, Later rank w w' → ∀ {p : Ptr} {k : Cat}, w.kind p = some k → Reachable rank w → w'.kind p = some k := by
            intro w w' lt p k hk hr
            have : Reachable rank w' ∧ w'.kind p = some k := by
              induction lt with
              | refl => exact ⟨hr, hk⟩
              | step op _ hl hu hd ih => exact ⟨.step op ih.1 hl hu hd, ((World.Inv.reachable ih.1).grows_step op hl).kind _ _ ih.2⟩
              | missed o k n _ ho hk ih => exact ⟨.missed o k n ih.1 ho hk, ((World.Inv.reachable ih.1).grows_missed o ho k hk n).kind _ _ ih.2⟩
            exact this.2
          exact i.kind_ne_next (this h2 hk h1.reachable)
        rw [(l.step_old d hp).1, (l.step_old d hp).2]
        exact h3 p k hk

theorem Program.last {h : List Def} {d : Def} {l : Linked} (a : Program rank S (h ++ [d]) l) :
    ∃ l0, Program rank S h l0 ∧ l = (l0.step S d).1 ∧ Legal rank l0.w (d.op S) ∧ (l0.step S d).2 ≠ .ub ∧ (l0.step S d).2 ≠ .diverge := by
  generalize e : h ++ [d] = h' at a
  cases a with
  | nil => simp at e
  | snoc h1 l1 d1 a1 h2 h3 h4 =>
    obtain ⟨rfl, e2⟩ := List.append_inj' e rfl
    cases e2
    exact ⟨l1, a1, rfl, h2, h3, h4⟩

/-- the state is a function of the program -/
theorem Program.unique {h : List Def} {l l' : Linked} (a : Program rank S h l) (a' : Program rank S h l') : l = l' := by
  induction a generalizing l' with
  | nil =>
    generalize e : ([] : List Def) = h at a'
    cases a' with
    | nil => rfl
    | snoc => simp at e
  | snoc h l d a _ _ _ ih =>
    obtain ⟨l0, h1, rfl, _⟩ := a'.last
    rw [ih h1]

/-- run a list of definitions -/
def Linked.runAll (S : RType → Str) (l : Linked) (ds : List Def) : Linked := ds.foldl (fun l d => (l.step S d).1) l

theorem Program.runAll {h : List Def} {l : Linked} (a : Program rank S h l) (ds : List Def)
    (hok : World.okRun rank l.w (ds.map (·.op S)) = true) : Program rank S (h ++ ds) (l.runAll S ds) := by
  induction ds generalizing h l with
  | nil => rw [List.append_nil]; exact a
  | cons d ds ih =>
    simp only [List.map_cons, World.okRun, Bool.and_eq_true] at hok
    obtain ⟨⟨h1, h2⟩, h3⟩ := hok
    have : Program rank S ((h ++ [d]) ++ ds) ((l.step S d).1.runAll S ds) := by
      refine ih (.snoc h l d a ?_ ?_ ?_) (by rw [(l.step_w d).1]; exact h3)
      · revert h1; generalize d.op S = op; intro h1; cases op <;> simp_all [Legal]
      · rw [(l.step_w d).2]; intro e; rw [e] at h2; cases h2
      · rw [(l.step_w d).2]; intro e; rw [e] at h2; cases h2
    rw [List.append_assoc] at this
    exact this

end Val
end Rtti
