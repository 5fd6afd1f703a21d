import Verif.Lemmas.LazyReach
import Verif.Lemmas.LazyLife
import Verif.Lemmas.Force
set_option autoImplicit false
namespace Rtti.Lazy
open LM Spec

mutual
theorem asks_all {M : World.Op → Prop} : ∀ c, (∀ x, Invokes x c → M x) →
    Cmd.All (fun y => (∀ o, y = .op o → M o) ∧ ∀ p b, y = .install p b → ∀ x, InvokesAny x b → M x) c
  | .attempt b, h => by unfold Cmd.All; exact asksAny_all b fun x hx => h x (by unfold Invokes; exact hx)
  | .op o, h => by
    unfold Cmd.All
    refine ⟨?_, by simp⟩
    rintro o e
    cases e
    exact h _ (by unfold Invokes; rfl)
  | .install p b, h => by
    unfold Cmd.All
    refine ⟨by simp, ?_⟩
    rintro p b e x hx
    cases e
    exact h x (by unfold Invokes; exact hx)
  | .setAttr .., _ | .query _, _ | .raise, _ => by unfold Cmd.All; simp
theorem asksAny_all {M : World.Op → Prop} : ∀ cs, (∀ x, InvokesAny x cs → M x) →
    Cmds.All (fun y => (∀ o, y = .op o → M o) ∧ ∀ p b, y = .install p b → ∀ x, InvokesAny x b → M x) cs
  | [], _ => by simp [Cmds.All]
  | c :: cs, h => by
    unfold Cmds.All
    exact ⟨asks_all c fun x hx => h x (by unfold InvokesAny; exact .inl hx), asksAny_all cs fun x hx => h x (by unfold InvokesAny; exact .inr hx)⟩
end

section
variable (M : World.Op → Prop)

/-- what is in `w'` was in `w` or was asked for -/
structure From (w w' : World) : Prop where
  items : ∀ o k, ∀ x ∈ (w'.cont o k).items, x ∈ (w.cont o k).items ∨ ∃ op, M op ∧ makes op = some (o, k, x.name)
  bases : ∀ d, ∀ x ∈ (w'.cls d).bases, x ∈ (w.cls d).bases ∨ M (.addBase d x.1 x.2)
  types : ∀ t p, w'.metaClass t = some p → w.metaClass t = some p ∨ ∃ o n, M (.createClass o n t)
  valid : ∀ t, w'.valid t = true → w.valid t = true ∨ M (.registerType t)

theorem From.refl (w : World) : From M w w := ⟨fun _ _ _ h => .inl h, fun _ _ h => .inl h, fun _ _ h => .inl h, fun _ h => .inl h⟩

theorem From.trans {a b c : World} (h : From M a b) (h' : From M b c) : From M a c where
  items o k x hx := (h'.items o k x hx).elim (h.items o k x) .inr
  bases d x hx := (h'.bases d x hx).elim (h.bases d x) .inr
  types t p e := (h'.types t p e).elim (h.types t p) .inr
  valid t e := (h'.valid t e).elim (h.valid t) .inr

def AskedFor (s : LW) : Prop := ∀ p b, s.pending p = some b → ∀ x, InvokesAny x b → M x

def Orig (s s' : LW) : Prop := AskedFor M s → AskedFor M s' ∧ From M s.w s'.w

theorem orig_look : QLook (Orig M) where
  refl s := fun h => ⟨h, .refl M _⟩
  trans := by
    intro a b c h h' g
    obtain ⟨g1, e1⟩ := h g
    obtain ⟨g2, e2⟩ := h' g1
    exact ⟨g2, e1.trans M e2⟩
  iter h := h

theorem from_tryCreate {o : Ptr} {k : Cat} {n : Str} (t : TypeId) (h : ∃ op, M op ∧ makes op = some (o, k, n)) (w : World) :
    From M w (tryCreate o k n t w).1 := by
  have key : From M w ((w.alloc k n o t).addItem o k ⟨w.next, n⟩).1 := by
    refine ⟨fun o' k' x hx => ?_, fun d x hx => ?_, fun _ _ h => .inl h, fun _ h => .inl h⟩
    · have sub : ∀ {o'' : Ptr} {k'' : Cat} {x : Item}, x ∈ ((w.alloc k n o t).cont o'' k'').items → x ∈ (w.cont o'' k'').items := by
        intro o'' k'' x hx
        simp only [World.alloc, upd] at hx
        split at hx
        · simp [Container.empty, ItemList.empty] at hx
        · exact hx
      simp only [World.addItem, Container.addItem] at hx
      by_cases eo : o' = o
      · subst eo
        rw [upd_same] at hx
        split at hx
        · rename_i ek
          subst ek
          rcases add_items ((w.alloc k' n o' t).cont o' k') ⟨w.next, n⟩ with e | e <;> rw [e] at hx
          · exact .inl (sub hx)
          · rcases List.mem_append.1 hx with hx | hx
            · exact .inl (sub hx)
            · obtain rfl := List.mem_singleton.1 hx
              exact .inr h
        · exact .inl (sub hx)
      · rw [upd_ne _ _ eo] at hx
        exact .inl (sub hx)
    · simp only [World.addItem, World.alloc, upd] at hx
      split at hx
      · simp at hx
      · exact .inl hx
  unfold tryCreate
  dsimp only
  split
  · exact key
  · exact ⟨key.items, key.bases, key.types, key.valid⟩

theorem from_tryCreateClass {o : Ptr} {n : Str} {t : TypeId} (h : M (.createClass o n t)) (w : World) :
    From M w (tryCreateClass o n t w).1 := by
  have key := from_tryCreate M t ⟨_, h, rfl⟩ w
  unfold tryCreateClass
  split
  · exact .refl M w
  · split
    · exact .refl M w
    · split
      · rename_i w1 p e
        rw [e] at key
        refine ⟨key.items, key.bases, fun t' q e' => ?_, key.valid⟩
        dsimp only [upd] at e'
        split at e'
        · rename_i et
          subst et
          exact .inr ⟨o, n, h⟩
        · exact key.types t' q e'
      · exact key

theorem from_addBase {p : Ptr} {t : TypeId} {c : Caster} (h : M (.addBase p t c)) (w : World) : From M w (w.step (.addBase p t c)).1 := by
  rcases step_addBase w p t c with e | e <;> rw [e]
  · exact .refl M w
  have h1 : ∀ d, ∀ x ∈ ((upd w.cls p { w.cls p with bases := World.basesAdd (w.cls p).bases t c } d).bases), x ∈ (w.cls d).bases ∨ M (.addBase d x.1 x.2) := by
    intro d x hx
    unfold upd at hx
    split at hx
    · rename_i ed
      subst ed
      dsimp only [World.basesAdd] at hx
      split at hx
      · exact .inl hx
      · rcases List.mem_append.1 hx with hx | hx
        · exact .inl hx
        · obtain rfl := List.mem_singleton.1 hx
          exact .inr h
    · exact .inl hx
  unfold World.addBaseClass
  split
  · exact .refl M w
  · split
    · exact .refl M w
    · rename_i base _
      simp only [World.addDerivedClass]
      split
      · exact ⟨fun _ _ _ h => .inl h, h1, fun _ _ h => .inl h, fun _ h => .inl h⟩
      · split
        · exact ⟨fun _ _ _ h => .inl h, h1, fun _ _ h => .inl h, fun _ h => .inl h⟩
        · refine ⟨fun _ _ _ h => .inl h, fun d x hx => ?_, fun _ _ h => .inl h, fun _ h => .inl h⟩
          dsimp only at hx
          by_cases e : d = base
          · subst e; rw [upd_same] at hx; exact h1 d x hx
          · rw [upd_ne _ _ e] at hx; exact h1 d x hx

theorem orig_change {f : World → World × Res (Option Ptr)} (h : ∀ w, From M w (f w).1) (s : LW) : Orig M s (change f s).1 :=
  fun g => ⟨g, h s.w⟩

variable {chk : Nat → LM Unit} (hc : ∀ p s, Orig M s (chk p s).1)
include hc

theorem orig_op (fuel : Nat) (o : World.Op) (hb : M o) (s : LW) : Orig M s (Lazy.op chk fuel o s).1 := by
  let R := io _ (orig_look M)
  have made : ∀ {look : LM (Option Ptr)} {o k n}, (∀ s, Orig M s (look s).1) → (∃ op, M op ∧ makes op = some (o, k, n)) →
      R.K (Lazy.getOrCreate look (tryCreate o k n 0)) (Lazy.getOrCreate look (tryCreate o k n 0)) := by
    intro look o k n hl hm
    exact R.getOrCreate hl (orig_change M (from_tryCreate M 0 hm))
  revert s
  show R.K (Lazy.op chk fuel o) (Lazy.op chk fuel o)
  cases o with
  | registerType t =>
    refine orig_change M fun w => ?_
    simp only [World.step]
    split
    · exact .refl M w
    · refine ⟨fun _ _ _ h => .inl h, fun _ _ h => .inl h, fun _ _ h => .inl h, fun t' e => ?_⟩
      dsimp only [upd] at e
      split at e
      · rename_i et
        subst et
        exact .inr hb
      · exact .inl e
  | createNamespace o n => exact made (R.getItem (chk := chk) (chk' := chk) hc _ _ _) ⟨_, hb, rfl⟩
  | createEnum o n => exact made (R.getItem (chk := chk) (chk' := chk) hc _ _ _) ⟨_, hb, rfl⟩
  | createClass o n t => exact R.getOrCreate (R.getItem (chk := chk) (chk' := chk) hc _ _ _) (orig_change M (from_tryCreateClass M hb))
  | createMethod o n i =>
    refine R.bind (R.read _) fun _ => ?_
    cases i with
    | false => exact R.pure _
    | true => exact made (R.getMethod (chk := chk) (chk' := chk) hc (.inl rfl) _ _) ⟨_, hb, rfl⟩
  | createProperty o n i =>
    refine R.bind (R.read _) fun _ => ?_
    split
    · exact R.pure _
    · cases i with
      | false => rename_i h; simp at h
      | true => exact made (R.getProperty (chk := chk) (chk' := chk) hc (.inl rfl) _ _) ⟨_, hb, rfl⟩
  | createConstructor o n i =>
    refine R.bind (R.read _) fun _ => ?_
    cases i with
    | false => exact R.pure _
    | true => exact made (R.getConstructor (chk := chk) (chk' := chk) hc _ _) ⟨_, hb, rfl⟩
  | addBase p t c =>
    intro s
    unfold Lazy.op
    dsimp only
    split
    · exact (orig_look M).refl s
    · exact orig_change M (from_addBase M hb) s

theorem orig_execs (fuel : Nat) (cs : List Cmd) (h : ∀ x, InvokesAny x cs → M x) (s : LW) : Orig M s (execs chk fuel cs s).1 := by
  refine (io _ (orig_look M)).execs (chk' := chk) (fuel' := fuel)
    ((io _ (orig_look M)).leaf hc (.inl rfl) (fun o ho s => orig_op M hc fuel o (ho.1 o rfl) s)
      (fun p n v _ s => ?_) (fun p b hb s => ?_)) cs (asksAny_all cs h) s
  · unfold setAttr; split <;> exact fun g => ⟨g, .refl M _⟩
  · unfold install
    split
    · exact (orig_look M).refl s
    · split
      · exact (orig_look M).refl s
      · refine fun g => ⟨fun q b' e => ?_, .refl M _⟩
        dsimp only at e
        unfold upd at e
        split at e
        · cases e; exact hb.2 p _ rfl
        · exact g q b' e

omit hc in
theorem orig_check (fuel p : Nat) (s : LW) : Orig M s (check fuel p s).1 := by
  induction fuel generalizing p s with
  | zero => exact (orig_look M).refl s
  | succ fuel ih =>
    cases hp : s.pending p with
    | none => rw [check_idle (.inl hp)]; exact (orig_look M).refl s
    | some body =>
      cases hr : s.running p with
      | true => rw [check_idle (.inr hr)]; exact (orig_look M).refl s
      | false =>
        rw [check_run hp hr]
        intro g
        have h1 := orig_execs M ih fuel body (g p body hp) (begin_ s p body)
        have h0 : Orig M s (begin_ s p body) := fun g => ⟨g, .refl M _⟩
        have h2 : ∀ s : LW, Orig M s (end_ s p) := fun s g => ⟨fun q b e => by
          unfold end_ at e
          dsimp only at e
          unfold upd at e
          split at e
          · cases e
          · exact g q b e, .refl M _⟩
        exact (orig_look M).trans h0 ((orig_look M).trans h1 (h2 _)) g

omit hc in
theorem orig_run (fuel : Nat) (cs : List Cmd) (h : ∀ x, InvokesAny x cs → M x) (s : LW) : Orig M s (run fuel cs s).1 :=
  orig_execs M (orig_check M fuel) fuel cs h s

end

end Rtti.Lazy
