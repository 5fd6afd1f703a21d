import Verif.Model.Lazy
set_option autoImplicit false
namespace Rtti.Lazy
open LM

/-! ### relations between computations

The functions of `Model/Lazy.lean` are built from a few primitives. Anything about them that is preserved by the
primitives holds of all of them; `Rel` is what has to be shown of the primitives. -/

structure Rel where
  K : {A : Type} → LM A → LM A → Prop
  pure : ∀ {A : Type} (a : A), K (LM.pure a) (LM.pure a)
  fail : ∀ {A : Type} (e : Err), K (LM.fail e : LM A) (LM.fail e)
  ub : ∀ {A : Type}, K (LM.ub : LM A) LM.ub
  diverge : ∀ {A : Type}, K (LM.diverge : LM A) LM.diverge
  look : ∀ {A : Type} (f : World → (Nat → NamedList Nat) → Res A), K (fun s => (s, f s.w s.attrs)) (fun s => (s, f s.w s.attrs))
  bind : ∀ {A B : Type} {m m' : LM A} {f f' : A → LM B}, K m m' → (∀ a, K (f a) (f' a)) → K (m.bind f) (m'.bind f')
  withBases : ∀ {A : Type} {this : Nat} {k k' : List (Nat × Caster) → LM A}, (∀ l, K (k l) (k' l)) →
    K (Lazy.withBases this k) (Lazy.withBases this k')
  catchAll : ∀ {A : Type} {m m' : LM A}, K m m' → K (Lazy.catchAll m) (Lazy.catchAll m')

namespace Rel
variable (R : Rel)

theorem read {A : Type} (f : World → Res A) : R.K (LM.read f) (LM.read f) := R.look fun w _ => f w

/-- the fuels for which two computations can be compared -/
def Fuels (n n' : Nat) : Prop := n = n' ∨ (n ≤ n' ∧ ∀ {A : Type} (m : LM A), R.K LM.diverge m)

theorem Fuels.zero {R : Rel} {n' : Nat} (h : R.Fuels 0 n') {A : Type} {m : LM A} (h0 : n' = 0 → m = LM.diverge) :
    R.K LM.diverge m := by
  rcases h with h | ⟨_, h⟩
  · rw [h0 h.symm]; exact R.diverge
  · exact h m

theorem Fuels.succ {R : Rel} {n n' : Nat} (h : R.Fuels (n + 1) n') : ∃ k, n' = k + 1 ∧ R.Fuels n k := by
  rcases h with h | ⟨h, hd⟩
  · exact ⟨n, h.symm, .inl rfl⟩
  · exact ⟨n' - 1, by omega, .inr ⟨by omega, hd⟩⟩

theorem firstBase {f f' : Nat → LM (Option Nat)} (h : ∀ p, R.K (f p) (f' p)) (l : List (Nat × Caster)) :
    R.K (Lazy.firstBase f l) (Lazy.firstBase f' l) := by
  induction l with
  | nil => exact R.pure _
  | cons x l ih =>
    refine R.bind (R.read _) fun p => R.bind (h p) fun r => ?_
    cases r with
    | some p => exact R.pure _
    | none => exact ih

theorem anyBase {f f' : Nat → LM Bool} (h : ∀ p, R.K (f p) (f' p)) (l : List (Nat × Caster)) :
    R.K (Lazy.anyBase f l) (Lazy.anyBase f' l) := by
  induction l with
  | nil => exact R.pure _
  | cons x l ih =>
    refine R.bind (R.read _) fun p => R.bind (h p) fun r => ?_
    cases r with
    | true => exact R.pure _
    | false => exact ih

theorem castBase {f f' : Nat → LM Bool} {g g' : Nat → Nat → LM Nat} (h : ∀ p, R.K (f p) (f' p))
    (hg : ∀ p a, R.K (g p a) (g' p a)) (a : Nat) (l : List (Nat × Caster)) :
    R.K (Lazy.castBase f g a l) (Lazy.castBase f' g' a l) := by
  induction l with
  | nil => exact R.pure _
  | cons x l ih =>
    refine R.bind (R.read _) fun p => R.bind (h p) fun r => ?_
    cases r with
    | true => exact R.bind (hg _ _) fun _ => R.pure _
    | false => exact ih

variable {chk chk' : Nat → LM Unit} (hc : ∀ p, R.K (chk p) (chk' p)) {fuel fuel' : Nat}
include hc

theorem classMethod (hf : R.Fuels fuel fuel') (this : Nat) (n : Str) :
    R.K (Lazy.classMethod chk fuel this n) (Lazy.classMethod chk' fuel' this n) := by
  induction fuel generalizing fuel' this with
  | zero => exact hf.zero fun h => by rw [h]; rfl
  | succ fuel ih =>
    obtain ⟨k, rfl, hf'⟩ := hf.succ
    unfold Lazy.classMethod
    split
    · exact R.pure _
    · refine R.bind (hc _) fun _ => R.bind (R.read _) fun r => ?_
      cases r with
      | some p => exact R.pure _
      | none => exact R.withBases (R.firstBase fun p => ih hf' p)

theorem classProperty (hf : R.Fuels fuel fuel') (this : Nat) (n : Str) :
    R.K (Lazy.classProperty chk fuel this n) (Lazy.classProperty chk' fuel' this n) := by
  induction fuel generalizing fuel' this with
  | zero => exact hf.zero fun h => by rw [h]; rfl
  | succ fuel ih =>
    obtain ⟨k, rfl, hf'⟩ := hf.succ
    unfold Lazy.classProperty
    split
    · exact R.pure _
    · refine R.bind (hc _) fun _ => R.bind (R.read _) fun r => ?_
      cases r with
      | some p => exact R.pure _
      | none => exact R.withBases (R.firstBase fun p => ih hf' p)

theorem getMethod (hf : R.Fuels fuel fuel') (this : Nat) (n : Str) :
    R.K (Lazy.getMethod chk fuel this n) (Lazy.getMethod chk' fuel' this n) := by
  unfold Lazy.getMethod
  split
  · exact R.pure _
  · refine R.bind (R.read _) fun k => ?_
    split
    · exact R.classMethod hc hf _ _
    · exact R.bind (hc _) fun _ => R.read _
    · exact R.ub

theorem getProperty (hf : R.Fuels fuel fuel') (this : Nat) (n : Str) :
    R.K (Lazy.getProperty chk fuel this n) (Lazy.getProperty chk' fuel' this n) := by
  unfold Lazy.getProperty
  refine R.bind (R.read _) fun k => ?_
  split
  · exact R.classProperty hc hf _ _
  · exact R.bind (hc _) fun _ => R.read _
  · exact R.ub

theorem getConstructor (this : Nat) (n : Str) :
    R.K (Lazy.getConstructor chk this n) (Lazy.getConstructor chk' this n) := R.bind (hc _) fun _ => R.read _

theorem getItem (this : Nat) (k : Cat) (n : Str) :
    R.K (Lazy.getItem chk this k n) (Lazy.getItem chk' this k n) := R.bind (hc _) fun _ => R.read _

theorem inheritedFrom (hf : R.Fuels fuel fuel') (this : Nat) (b : Option Nat) :
    R.K (Lazy.inheritedFrom chk fuel this b) (Lazy.inheritedFrom chk' fuel' this b) := by
  induction fuel generalizing fuel' this with
  | zero => exact hf.zero fun h => by rw [h]; rfl
  | succ fuel ih =>
    obtain ⟨k, rfl, hf'⟩ := hf.succ
    unfold Lazy.inheritedFrom
    split
    · exact R.pure _
    · split
      · exact R.pure _
      · exact R.bind (hc _) fun _ => R.withBases (R.anyBase fun p => ih hf' p)

theorem cast (hf : R.Fuels fuel fuel') (this : Nat) (b : Option Nat) (a : Nat) :
    R.K (Lazy.cast chk fuel this b a) (Lazy.cast chk' fuel' this b a) := by
  induction fuel generalizing fuel' this a with
  | zero => exact hf.zero fun h => by rw [h]; rfl
  | succ fuel ih =>
    obtain ⟨k, rfl, hf'⟩ := hf.succ
    unfold Lazy.cast
    split
    · exact R.pure _
    · split
      · exact R.pure _
      · exact R.bind (hc _) fun _ =>
          R.bind (R.withBases (R.castBase (fun p => R.inheritedFrom hc hf' _ _) (fun p x => ih hf' p x) a)) fun _ => R.pure _

theorem query (hf : R.Fuels fuel fuel') (x : Query) : R.K (Lazy.query chk fuel x) (Lazy.query chk' fuel' x) := by
  have hr : ∀ p, R.K (onlyIf p) (onlyIf p) := fun _ => R.read _
  cases x with
  | item c k n => exact R.bind (R.getItem hc _ _ _) fun _ => R.pure _
  | itemAt c k i => exact R.bind (hc _) fun _ => R.bind (hr _) fun _ => R.read _
  | count c k => exact R.bind (hc _) fun _ => R.bind (hr _) fun _ => R.read _
  | constructor c n => exact R.bind (R.getConstructor hc _ _) fun _ => R.pure _
  | method c n => exact R.bind (R.getMethod hc hf _ _) fun _ => R.pure _
  | property c n => exact R.bind (R.getProperty hc hf _ _) fun _ => R.pure _
  | attr c n => exact R.bind (hc _) fun _ => R.look fun _ a => .val (Ans.attr (attrOf (a c) n))
  | baseCount c => exact R.bind (hc _) fun _ => R.bind (hr _) fun _ => R.read _
  | derivedCount c => exact R.bind (hc _) fun _ => R.bind (hr _) fun _ => R.read _
  | inherited c b => exact R.bind (hr _) fun _ => R.bind (R.inheritedFrom hc hf _ _) fun _ => R.pure _
  | cast c b a => exact R.bind (hr _) fun _ => R.bind (R.cast hc hf _ _ _) fun _ => R.pure _

end Rel

/-- the owner of what a call defines -/
def opOwner : World.Op → Option Nat
  | .registerType _ => none
  | .createNamespace o _ | .createClass o _ _ | .createEnum o _ | .createMethod o _ _ | .createProperty o _ _
  | .createConstructor o _ _ | .addBase o _ _ => some o

namespace Rel
variable (R : Rel) {chk chk' : Nat → LM Unit} {fuel fuel' : Nat}

theorem getOrCreate {look look' : LM (Option Nat)} {f : World → World × Res (Option Nat)} (hl : R.K look look')
    (hc : R.K (change f) (change f)) : R.K (Lazy.getOrCreate look f) (Lazy.getOrCreate look' f) := by
  refine R.bind hl fun r => ?_
  cases r with
  | some p => exact R.pure _
  | none =>
    refine R.bind hc fun r => ?_
    cases r with
    | some p => exact R.pure _
    | none => exact hl

theorem op (hc : ∀ p, R.K (chk p) (chk' p)) (hf : R.Fuels fuel fuel') (o : World.Op)
    (hreg : ∀ t, o = .registerType t → R.K (change fun w => w.step (.registerType t)) (change fun w => w.step (.registerType t)))
    (hcr : ∀ ow, opOwner o = some ow → ∀ k n, k ≠ .cls → R.K (change (tryCreate ow k n 0)) (change (tryCreate ow k n 0)))
    (hcl : ∀ ow n t, o = .createClass ow n t → R.K (change (tryCreateClass ow n t)) (change (tryCreateClass ow n t)))
    (hb : ∀ p t c, o = .addBase p t c → R.K (Lazy.op chk fuel o) (Lazy.op chk' fuel' o)) :
    R.K (Lazy.op chk fuel o) (Lazy.op chk' fuel' o) := by
  cases o with
  | registerType t => exact hreg t rfl
  | createNamespace o n => exact R.getOrCreate (R.getItem hc _ _ _) (hcr o rfl _ _ (by simp))
  | createEnum o n => exact R.getOrCreate (R.getItem hc _ _ _) (hcr o rfl _ _ (by simp))
  | createClass o n t => exact R.getOrCreate (R.getItem hc _ _ _) (hcl o n t rfl)
  | createMethod o n i =>
    refine R.bind (R.read _) fun _ => ?_
    split
    · exact R.pure _
    · exact R.getOrCreate (R.getMethod hc hf _ _) (hcr o rfl _ _ (by simp))
  | createProperty o n i =>
    refine R.bind (R.read _) fun _ => ?_
    split
    · exact R.pure _
    · exact R.getOrCreate (R.getProperty hc hf _ _) (hcr o rfl _ _ (by simp))
  | createConstructor o n i =>
    refine R.bind (R.read _) fun _ => ?_
    split
    · exact R.pure _
    · exact R.getOrCreate (R.getConstructor hc _ _) (hcr o rfl _ _ (by simp))
  | addBase p t c => exact hb p t c rfl

end Rel

mutual
/-- a condition on every call a program may make itself (not the programs it installs) -/
def Cmd.All (P : Rtti.Cmd → Prop) : Rtti.Cmd → Prop
  | .attempt b => Cmds.All P b
  | c => P c
def Cmds.All (P : Rtti.Cmd → Prop) : List Rtti.Cmd → Prop
  | [] => True
  | c :: cs => Cmd.All P c ∧ Cmds.All P cs
end

mutual
theorem Rel.exec (R : Rel) {chk chk' : Nat → LM Unit} {fuel fuel' : Nat} {P : Cmd → Prop}
    (hx : ∀ c, P c → (∀ b, c ≠ .attempt b) → R.K (Lazy.exec chk fuel c) (Lazy.exec chk' fuel' c)) :
    ∀ c, Cmd.All P c → R.K (Lazy.exec chk fuel c) (Lazy.exec chk' fuel' c)
  | .attempt b, h => by
    unfold Lazy.exec
    exact R.bind (R.catchAll (Rel.execs R hx b (by simpa [Cmd.All] using h))) fun _ => R.pure _
  | .op o, h => hx _ (by simpa [Cmd.All] using h) (by simp)
  | .setAttr .., h => hx _ (by simpa [Cmd.All] using h) (by simp)
  | .query _, h => hx _ (by simpa [Cmd.All] using h) (by simp)
  | .install .., h => hx _ (by simpa [Cmd.All] using h) (by simp)
  | .raise, h => hx _ (by simpa [Cmd.All] using h) (by simp)
theorem Rel.execs (R : Rel) {chk chk' : Nat → LM Unit} {fuel fuel' : Nat} {P : Cmd → Prop}
    (hx : ∀ c, P c → (∀ b, c ≠ .attempt b) → R.K (Lazy.exec chk fuel c) (Lazy.exec chk' fuel' c)) :
    ∀ cs, Cmds.All P cs → R.K (Lazy.execs chk fuel cs) (Lazy.execs chk' fuel' cs)
  | [], _ => by unfold Lazy.execs; exact R.pure _
  | c :: cs, h => by
    unfold Lazy.execs
    simp only [Cmds.All] at h
    exact R.bind (Rel.exec R hx c h.1) fun _ => R.bind (Rel.execs R hx cs h.2) fun _ => R.pure _
end

/-- a program of commands none of which needs a special treatment -/
theorem Rel.leaf (R : Rel) {chk chk' : Nat → LM Unit} {fuel fuel' : Nat} (hc : ∀ p, R.K (chk p) (chk' p))
    (hf : R.Fuels fuel fuel') {P : Cmd → Prop}
    (hop : ∀ o, P (.op o) → R.K (Lazy.op chk fuel o) (Lazy.op chk' fuel' o))
    (hset : ∀ p n v, P (.setAttr p n v) → R.K (Lazy.setAttr p n v) (Lazy.setAttr p n v))
    (hin : ∀ p b, P (.install p b) → R.K (Lazy.install p b) (Lazy.install p b)) :
    ∀ c, P c → (∀ b, c ≠ .attempt b) → R.K (Lazy.exec chk fuel c) (Lazy.exec chk' fuel' c) := by
  intro c hP hn
  cases c with
  | op o => unfold Lazy.exec; exact R.bind (hop o hP) fun _ => R.pure _
  | setAttr p n v => unfold Lazy.exec; exact R.bind (hset p n v hP) fun _ => R.pure _
  | query q => unfold Lazy.exec; exact R.query hc hf q
  | install p b => unfold Lazy.exec; exact R.bind (hin p b hP) fun _ => R.pure _
  | raise => unfold Lazy.exec; exact R.fail _
  | attempt b => exact absurd rfl (hn b)

mutual
theorem Cmd.all_true : ∀ c, Cmd.All (fun _ => True) c
  | .attempt b => by unfold Cmd.All; exact Cmds.all_true b
  | .op _ | .setAttr .. | .query _ | .install .. | .raise => by simp [Cmd.All]
theorem Cmds.all_true : ∀ cs, Cmds.All (fun _ => True) cs
  | [] => by simp [Cmds.All]
  | c :: cs => by unfold Cmds.All; exact ⟨Cmd.all_true c, Cmds.all_true cs⟩
end

/-! ### the three relations used -/

structure QLook (Q : LW → LW → Prop) : Prop where
  refl : ∀ s, Q s s
  trans : ∀ {a b c}, Q a b → Q b c → Q a c
  iter : ∀ {s s' : LW} {i : List Nat}, Q { s with iter := i } s' → Q s { s' with iter := s.iter }

/-- `Q` holds between the state before and the state after -/
def io (Q : LW → LW → Prop) (q : QLook Q) : Rel where
  K m _ := ∀ s, Q s (m s).1
  pure _ s := q.refl s
  fail _ s := q.refl s
  ub s := q.refl s
  diverge s := q.refl s
  look _ s := q.refl s
  bind := by
    intro A B m _ f _ h hf s
    have h := h s
    unfold LM.bind
    cases e : m s with
    | mk s' r =>
      rw [e] at h
      cases r with
      | val a => exact q.trans h (hf a s')
      | throw _ => exact h
      | ub => exact h
      | diverge => exact h
  withBases h s := q.iter (h _ _)
  catchAll := by
    intro A m _ h s
    have h := h s
    unfold Lazy.catchAll
    cases e : m s with
    | mk s' r => rw [e] at h; cases r <;> exact h

structure SLook (S : LW → LW → Prop) : Prop where
  w : ∀ {s t}, S s t → s.w = t.w
  attrs : ∀ {s t}, S s t → s.attrs = t.attrs
  iters : ∀ {s t}, S s t → s.iter = t.iter
  iter : ∀ {s t} (i : List Nat), S s t → S { s with iter := i } { t with iter := i }

/-- related states give equal outcomes and related states -/
def sim (S : LW → LW → Prop) (q : SLook S) : Rel where
  K m m' := ∀ s t, S s t → S (m s).1 (m' t).1 ∧ (m s).2 = (m' t).2
  pure _ _ _ h := ⟨h, rfl⟩
  fail _ _ _ h := ⟨h, rfl⟩
  ub _ _ h := ⟨h, rfl⟩
  diverge _ _ h := ⟨h, rfl⟩
  look f s t h := ⟨h, by show f s.w s.attrs = f t.w t.attrs; rw [q.w h, q.attrs h]⟩
  bind := by
    intro A B m m' f f' h hf s t hs
    have h := h s t hs
    unfold LM.bind
    cases e : m s with
    | mk s' r =>
      cases e' : m' t with
      | mk t' r' =>
        rw [e, e'] at h
        obtain ⟨h1, h2⟩ := h
        dsimp only at h1 h2
        subst h2
        cases r with
        | val a => exact hf a s' t' h1
        | throw _ => exact ⟨h1, rfl⟩
        | ub => exact ⟨h1, rfl⟩
        | diverge => exact ⟨h1, rfl⟩
  withBases := by
    intro A this k k' h s t hs
    have h := h (s.w.cls this).bases { s with iter := this :: s.iter } { t with iter := this :: t.iter }
      (by have := q.iter (this :: s.iter) hs; rw [q.iters hs] at this ⊢; exact this)
    unfold Lazy.withBases
    have hb : (t.w.cls this).bases = (s.w.cls this).bases := by rw [q.w hs]
    dsimp only
    rw [hb]
    refine ⟨?_, h.2⟩
    have := q.iter s.iter h.1
    rw [q.iters hs] at this ⊢
    exact this
  catchAll := by
    intro A m m' h s t hs
    have h := h s t hs
    unfold Lazy.catchAll
    cases e : m s with
    | mk s' r =>
      cases e' : m' t with
      | mk t' r' =>
        rw [e, e'] at h
        obtain ⟨h1, h2⟩ := h
        dsimp only at h1 h2
        subst h2
        cases r <;> exact ⟨h1, rfl⟩

/-- an outcome other than not ending stays the same -/
def mono : Rel where
  K m m' := ∀ s, (m s).2 ≠ .diverge → m' s = m s
  pure _ _ _ := rfl
  fail _ _ _ := rfl
  ub _ _ := rfl
  diverge _ _ := rfl
  look _ _ _ := rfl
  bind := by
    intro A B m m' f f' h hf s hs
    have h := h s
    unfold LM.bind at hs ⊢
    cases e : m s with
    | mk s' r =>
      rw [e] at h hs
      cases r with
      | val a => rw [h (by simp)]; exact hf a s' hs
      | throw _ => rw [h (by simp)]
      | ub => rw [h (by simp)]
      | diverge => exact absurd rfl hs
  withBases := by
    intro A this k k' h s hs
    unfold Lazy.withBases at hs ⊢
    dsimp only at hs ⊢
    rw [h _ _ hs]
  catchAll := by
    intro A m m' h s hs
    have h := h s
    unfold Lazy.catchAll at hs ⊢
    cases e : m s with
    | mk s' r =>
      rw [e] at h hs
      cases r with
      | val a => rw [h (by simp)]
      | throw _ => rw [h (by simp)]
      | ub => rw [h (by simp)]
      | diverge => exact absurd rfl hs

end Rtti.Lazy
