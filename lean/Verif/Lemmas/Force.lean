import Verif.Model.Force
import Verif.Spec.Force
import Verif.Lemmas.LazyMore
set_option autoImplicit false
namespace Rtti.Lazy
open LM Spec

/-! ### relations between the state before and after -/

theorem io_visit {Q : LW → LW → Prop} (q : QLook Q) {f : Nat → LM Bool} (h : ∀ p s, Q s (f p s).1) (l : List Item) (s : LW) :
    Q s (visit f l s).1 := by
  induction l generalizing s with
  | nil => exact q.refl s
  | cons it l ih =>
    unfold visit
    refine (io Q q).bind (m := f it.ptr) (m' := f it.ptr) (fun s => h it.ptr s) (f' := fun b => if b then visit f l else LM.pure ()) (fun b s => ?_) s
    cases b
    · exact q.refl s
    · exact ih s

theorem io_forEach {Q : LW → LW → Prop} (q : QLook Q) {f : Nat → LM Bool} (h : ∀ p s, Q s (f p s).1) (p : Nat) (k : Cat) (s : LW) :
    Q s (forEach p k f s).1 := by
  have := io_visit q h (s.w.cont p k).items s
  unfold forEach
  dsimp only
  split <;> exact this

theorem io_force {Q : LW → LW → Prop} (q : QLook Q) {n : Nat} (h : ∀ p s, Q s (check n p s).1) (d p : Nat) (s : LW) :
    Q s (force n d p s).1 := by
  induction d generalizing p s with
  | zero => exact q.refl s
  | succ d ih =>
    have hf : ∀ r s, Q s (((force n d r).bind fun _ => LM.pure true) s).1 := fun r s =>
      (io Q q).bind (m := force n d r) (m' := force n d r) (ih r) (f' := fun _ => LM.pure true) (fun _ s => q.refl s) s
    unfold force
    exact (io Q q).bind (m' := check n p) (h p) (f' := fun _ => (forEach p .cls fun q => (force n d q).bind fun _ => pure true).bind fun _ =>
      forEach p .nmspace fun q => (force n d q).bind fun _ => pure true)
      (fun _ => (io Q q).bind (m' := forEach p .cls fun q => (force n d q).bind fun _ => pure true) (io_forEach q hf p .cls)
        (f' := fun _ => forEach p .nmspace fun q => (force n d q).bind fun _ => pure true) fun _ => io_forEach q hf p .nmspace) s

theorem Top.check {s : LW} (h : Top s) (n p : Nat) : Top (check n p s).1 :=
  ⟨(keeps_check n p s).alive h.alive, fun q => by rw [(keeps_check n p s).running]; exact h.calm q,
    (kinds_check n p s h.kinds).1, lists_check n p s h.lists, (keeps_check n p s).iter.trans h.iter⟩

theorem Top.force {s : LW} (h : Top s) (n d p : Nat) : Top (force n d p s).1 :=
  ⟨(io_force keeps_look (fun p => keeps_check n p) d p s).alive h.alive,
    fun q => by rw [(io_force keeps_look (fun p => keeps_check n p) d p s).running]; exact h.calm q,
    (io_force kinds_look (fun p => kinds_check n p) d p s h.kinds).1, io_force lists_look (fun p => lists_check n p) d p s h.lists,
    (io_force keeps_look (fun p => keeps_check n p) d p s).iter.trans h.iter⟩

/-! ### the tree only grows -/

structure Sound (s : LW) : Prop where
  kinds : KindsOk s
  items : ∀ o k it, o < s.w.next → it ∈ (s.w.cont o k).items → it.ptr < s.w.next
  live : ∀ q, s.pending q ≠ none → q < s.w.next

structure Tree (s s' : LW) : Prop where
  sound : Sound s'
  next : s.w.next ≤ s'.w.next
  lists : ∀ o k, o < s.w.next → (s.w.cont o k).items <+: (s'.w.cont o k).items

def TreeQ (s s' : LW) : Prop := Sound s → Tree s s'

theorem Tree.refl {s : LW} (h : Sound s) : Tree s s := ⟨h, Nat.le_refl _, fun _ _ _ => List.prefix_refl _⟩

theorem tree_look : QLook TreeQ where
  refl _ h := .refl h
  trans h h' i := ⟨(h' (h i).sound).sound, Nat.le_trans (h i).next (h' (h i).sound).next,
    fun o k ho => ((h i).lists o k ho).trans ((h' (h i).sound).lists o k (Nat.lt_of_lt_of_le ho (h i).next))⟩
  iter h i := have t := h ⟨i.kinds, i.items, i.live⟩; ⟨⟨t.sound.kinds, t.sound.items, t.sound.live⟩, t.next, t.lists⟩

theorem add_items (l : ItemList) (it : Item) :
    (l.add (some it)).1.items = l.items ∨ (l.add (some it)).1.items = l.items ++ [it] := by
  simp only [ItemList.add]
  split <;> simp

theorem tryCreate_items (c : Nat) (k : Cat) (n : Str) (t : Nat) (w : World) (o : Nat) (j : Cat) :
    (o < w.next → ((tryCreate c k n t w).1.cont o j).items = (w.cont o j).items ∨
      ((tryCreate c k n t w).1.cont o j).items = (w.cont o j).items ++ [⟨w.next, n⟩]) ∧
    (o = w.next → ∀ it ∈ ((tryCreate c k n t w).1.cont o j).items, it.ptr = w.next) := by
  have key : ∀ o j, ((tryCreate c k n t w).1.cont o j).items = (((w.alloc k n c t).cont o) j).items ∨
      ((tryCreate c k n t w).1.cont o j).items = (((w.alloc k n c t).cont o) j).items ++ [⟨w.next, n⟩] := by
    intro o j
    have h : ∀ w' : World, w'.cont = upd (w.alloc k n c t).cont c (((w.alloc k n c t).cont c).addItem (some (k, ⟨w.next, n⟩))).1 →
        (w'.cont o j).items = (((w.alloc k n c t).cont o) j).items ∨
        (w'.cont o j).items = (((w.alloc k n c t).cont o) j).items ++ [⟨w.next, n⟩] := by
      intro w' e
      rw [e]
      simp only [upd]
      split
      · rename_i e'
        subst e'
        simp only [Container.addItem]
        split
        · rename_i e''
          subst e''
          exact add_items _ _
        · exact .inl rfl
      · exact .inl rfl
    unfold tryCreate
    dsimp only
    split
    · exact h _ rfl
    · exact h _ rfl
  constructor
  · intro ho
    have := key o j
    simpa only [World.alloc, upd, if_neg (Nat.ne_of_lt ho)] using this
  · rintro rfl it hit
    have h0 : (((w.alloc k n c t).cont w.next) j).items = [] := by simp [World.alloc, upd, Container.empty, ItemList.empty]
    rcases key w.next j with h | h <;> rw [h, h0] at hit
    · cases hit
    · simp at hit; rw [hit]

theorem tryCreate_next (c : Nat) (k : Cat) (n : Str) (t : Nat) (w : World) : (tryCreate c k n t w).1.next = w.next + 1 := by
  unfold tryCreate
  dsimp only
  split <;> rfl

theorem tree_tryCreate (c : Nat) (k : Cat) (n : Str) (t : Nat) :
    (io TreeQ tree_look).K (change (tryCreate c k n t)) (change (tryCreate c k n t)) := by
  intro s i
  have hn := tryCreate_next c k n t s.w
  have hi := tryCreate_items c k n t s.w
  have hk := (kinds_tryCreate c k n t s i.kinds).1
  unfold change at hk ⊢
  generalize (tryCreate c k n t s.w) = r at hn hi hk
  refine ⟨⟨hk, fun o j it ho hit => ?_, fun q hq => ?_⟩, ?_, fun o j ho => ?_⟩
  · dsimp only at ho hit ⊢
    rcases Nat.lt_or_ge o s.w.next with h | h
    · rcases (hi o j).1 h with e | e <;> rw [e] at hit
      · have := i.items o j it h hit; omega
      · rcases List.mem_append.1 hit with h' | h'
        · have := i.items o j it h h'; omega
        · simp at h'; rw [h']; show s.w.next < _; omega
    · have := (hi o j).2 (by omega) it hit
      omega
  · have := i.live q hq
    show q < r.1.next
    omega
  · show s.w.next ≤ r.1.next
    omega
  · show _ <+: (r.1.cont o j).items
    rcases (hi o j).1 ho with e | e <;> rw [e]
    · exact List.prefix_refl _
    · exact List.prefix_append _ _

/-- changes that leave the lists alone -/
theorem tree_of_eq {A : Type} {f : World → World × Res A}
    (h : ∀ w, (f w).1.kind = w.kind ∧ (f w).1.next = w.next ∧ (f w).1.cont = w.cont) :
    (io TreeQ tree_look).K (change f) (change f) := by
  intro s i
  obtain ⟨h1, h2, h3⟩ := h s.w
  unfold change
  refine ⟨⟨fun p k e => ?_, fun o k it ho hit => ?_, fun q hq => ?_⟩, ?_, fun o k _ => ?_⟩
  · dsimp only at e ⊢; rw [h1] at e; rw [h2]; exact i.kinds p k e
  · dsimp only at ho hit ⊢; rw [h2] at ho ⊢; rw [h3] at hit; exact i.items o k it ho hit
  · dsimp only at hq ⊢; rw [h2]; exact i.live q hq
  · dsimp only; rw [h2]; exact Nat.le_refl _
  · dsimp only; rw [h3]; exact List.prefix_refl _

theorem tree_tryCreateClass (c : Nat) (n : Str) (t : Nat) :
    (io TreeQ tree_look).K (change (tryCreateClass c n t)) (change (tryCreateClass c n t)) := by
  intro s i
  have h := tree_tryCreate c .cls n t s i
  unfold change at h ⊢
  unfold tryCreateClass
  split
  · exact .refl i
  · split
    · exact .refl i
    · split
      · rename_i w1 p e
        rw [e] at h
        exact ⟨⟨h.sound.kinds, h.sound.items, h.sound.live⟩, h.next, h.lists⟩
      · exact h

theorem tree_execs {chk : Nat → LM Unit} (hc : ∀ p, (io TreeQ tree_look).K (chk p) (chk p)) (fuel : Nat) (cs : List Cmd) :
    (io TreeQ tree_look).K (execs chk fuel cs) (execs chk fuel cs) := by
  refine (io TreeQ tree_look).execs (P := fun _ => True)
    ((io TreeQ tree_look).leaf hc (.inl rfl) (fun o _ => ?_) (fun p n v _ => ?_) (fun p b _ => ?_)) cs (Cmds.all_true cs)
  · refine (io TreeQ tree_look).op hc (.inl rfl) o (fun t _ => tree_of_eq fun w => ?_) (fun _ _ _ _ _ => tree_tryCreate _ _ _ _)
      (fun _ _ _ _ => tree_tryCreateClass _ _ _) ?_
    · simp only [World.step]; split <;> exact ⟨rfl, rfl, rfl⟩
    · rintro p t c rfl s
      unfold Lazy.op
      dsimp only
      split
      · exact tree_look.refl s
      · refine tree_of_eq (fun w => ?_) s
        refine ⟨(kinds_addBase p t c w).1, (kinds_addBase p t c w).2, ?_⟩
        rcases step_addBase w p t c with e | e <;> rw [e]
        exact (addBaseClass_frame w p t c).2.2.1
  · intro s; unfold setAttr; split <;> exact fun i => ⟨⟨i.kinds, i.items, i.live⟩, Nat.le_refl _, fun _ _ _ => List.prefix_refl _⟩
  · intro s
    unfold install
    split
    · exact tree_look.refl s
    · rename_i hp
      split
      · exact tree_look.refl s
      · refine fun i => ⟨⟨i.kinds, i.items, fun q hq => ?_⟩, Nat.le_refl _, fun _ _ _ => List.prefix_refl _⟩
        dsimp only [upd] at hq ⊢
        split at hq
        · rename_i e
          subst e
          have hp : s.w.isContainer q = true := by simpa using hp
          rcases (World.isContainer_iff _ _).1 hp with h | h <;> exact i.kinds q _ h
        · exact i.live q hq

theorem tree_check (fuel p : Nat) : (io TreeQ tree_look).K (check fuel p) (check fuel p) := by
  induction fuel generalizing p with
  | zero => exact fun s => tree_look.refl s
  | succ fuel ih =>
    intro s i
    cases hp : s.pending p with
    | none => rw [check_idle (.inl hp)]; exact .refl i
    | some body =>
      cases hr : s.running p with
      | true => rw [check_idle (.inr hr)]; exact .refl i
      | false =>
        rw [check_run hp hr]
        have t := tree_execs ih fuel body (begin_ s p body) ⟨i.kinds, i.items, i.live⟩
        refine ⟨⟨t.sound.kinds, t.sound.items, fun q hq => ?_⟩, t.next, t.lists⟩
        dsimp only [end_, upd] at hq
        split at hq
        · exact absurd rfl hq
        · exact t.sound.live q hq

theorem sound_init : Sound init := ⟨kindsOk_init, fun _ _ _ _ h => by simp [init, World.init, Container.empty, ItemList.empty] at h, fun _ h => absurd rfl h⟩

theorem sound_run (fuel : Nat) (cs : List Cmd) : Sound (run fuel cs init).1 := (tree_execs (tree_check fuel) fuel cs init sound_init).sound

theorem below_lt {s : LW} (i : Sound s) {p q : Nat} (h : Below s.w p q) : p < s.w.next → q < s.w.next := by
  induction h with
  | refl => exact id
  | cls hm _ ih | nmspace hm _ ih => exact fun hp => ih (i.items _ _ _ hp hm)

theorem below_mono {s s' : LW} (i : Sound s) (t : Tree s s') {p q : Nat} (h : Below s.w p q) : p < s.w.next → Below s'.w p q := by
  induction h with
  | refl => exact fun _ => .refl _
  | cls hm _ ih => exact fun hp => .cls ((t.lists _ _ hp).subset hm) (ih (i.items _ _ _ hp hm))
  | nmspace hm _ ih => exact fun hp => .nmspace ((t.lists _ _ hp).subset hm) (ih (i.items _ _ _ hp hm))

/-! ### without installing callbacks nothing becomes pending -/

def Still (s : LW) : Prop := ∀ p b, s.pending p = some b → InstallNothing b

def StillQ (s s' : LW) : Prop := Still s → Still s' ∧ (∀ q, s.pending q = none → s'.pending q = none) ∧
  ∀ q, installedFor q s'.log = installedFor q s.log

theorem still_look : QLook StillQ where
  refl _ h := ⟨h, fun _ h => h, fun _ => rfl⟩
  trans h h' i := ⟨(h' (h i).1).1, fun q e => (h' (h i).1).2.1 q ((h i).2.1 q e), fun q => ((h' (h i).1).2.2 q).trans ((h i).2.2 q)⟩
  iter h := h

theorem still_change {A : Type} (f : World → World × Res A) : (io StillQ still_look).K (change f) (change f) :=
  fun _ i => ⟨i, fun _ h => h, fun _ => rfl⟩

def Quiet1 : Cmd → Prop
  | .install .. => False
  | _ => True

mutual
theorem quiet_all : ∀ x, InstallsNothing x → Cmd.All Quiet1 x
  | .attempt b, h => by unfold Cmd.All; exact quiets_all b (by simpa [InstallsNothing] using h)
  | .op _, _ | .setAttr .., _ | .query _, _ | .raise, _ => by simp [Cmd.All, Quiet1]
  | .install .., h => by simp [InstallsNothing] at h
theorem quiets_all : ∀ xs, InstallNothing xs → Cmds.All Quiet1 xs
  | [], _ => by simp [Cmds.All]
  | x :: l, h => by
    unfold Cmds.All
    simp only [InstallNothing] at h
    exact ⟨quiet_all x h.1, quiets_all l h.2⟩
end

theorem still_execs {chk : Nat → LM Unit} (hc : ∀ p, (io StillQ still_look).K (chk p) (chk p)) (fuel : Nat) (cs : List Cmd)
    (h : InstallNothing cs) : (io StillQ still_look).K (execs chk fuel cs) (execs chk fuel cs) := by
  refine (io StillQ still_look).execs (P := Quiet1)
    ((io StillQ still_look).leaf hc (.inl rfl) (fun o _ => ?_) (fun p n v _ => ?_) (fun p b h => ?_)) cs (quiets_all cs h)
  · refine (io StillQ still_look).op hc (.inl rfl) o (fun _ _ => still_change _) (fun _ _ _ _ _ => still_change _)
      (fun _ _ _ _ => still_change _) ?_
    rintro p t c rfl s
    unfold Lazy.op
    dsimp only
    split
    · exact still_look.refl s
    · exact still_change _ s
  · intro s; unfold setAttr; split <;> exact fun i => ⟨i, fun _ h => h, fun _ => rfl⟩
  · exact absurd h (by simp [Quiet1])

theorem still_check (fuel p : Nat) : (io StillQ still_look).K (check fuel p) (check fuel p) := by
  induction fuel generalizing p with
  | zero => exact fun s => still_look.refl s
  | succ fuel ih =>
    intro s i
    cases hp : s.pending p with
    | none => rw [check_idle (.inl hp)]; exact still_look.refl s i
    | some body =>
      cases hr : s.running p with
      | true => rw [check_idle (.inr hr)]; exact still_look.refl s i
      | false =>
        rw [check_run hp hr]
        obtain ⟨h1, h2, h3⟩ := still_execs ih fuel body (i p body hp) (begin_ s p body) i
        refine ⟨fun q b e => ?_, fun q e => ?_, fun q => ?_⟩
        · dsimp only [end_, upd] at e
          split at e
          · cases e
          · exact h1 q b e
        · dsimp only [end_, upd]
          split
          · rfl
          · exact h2 q e
        · dsimp only [end_]
          rw [installedFor_append, h3 q]
          simp [begin_, installedFor_append, installedFor]

/-! ### the visit reaches everything -/

theorem forEach_val {p : Nat} {k : Cat} {f : Nat → LM Bool} {s s' : LW} (h : forEach p k f s = (s', .val ())) :
    visit f (s.w.cont p k).items s = (s', .val ()) := by
  unfold forEach at h
  dsimp only at h
  split at h
  · exact h
  · cases h

/-- what the proof needs at each point -/
structure Calm (s : LW) : Prop where
  calm : ∀ p, s.running p = false
  sound : Sound s
  still : Still s

theorem Calm.next {s s' : LW} (c : Calm s) (hk : Keeps s s') (ht : TreeQ s s') (hs : StillQ s s') : Calm s' :=
  ⟨fun p => by rw [hk.running]; exact c.calm p, (ht c.sound).sound, (hs c.still).1⟩

/-- `s'` comes after `s` -/
structure After (s s' : LW) : Prop where
  calm : Calm s'
  tree : Tree s s'
  pend : ∀ q, s.pending q = none → s'.pending q = none
  inst : ∀ q, installedFor q s'.log = installedFor q s.log

theorem After.trans {a b c : LW} (h : After a b) (h' : After b c) : After a c :=
  ⟨h'.calm, tree_look.trans (fun _ => h.tree) (fun _ => h'.tree) |> fun t => by
    exact ⟨h'.tree.sound, Nat.le_trans h.tree.next h'.tree.next, fun o k ho => (h.tree.lists o k ho).trans (h'.tree.lists o k (Nat.lt_of_lt_of_le ho h.tree.next))⟩,
   fun q e => h'.pend q (h.pend q e), fun q => (h'.inst q).trans (h.inst q)⟩

theorem Calm.after {s s' : LW} (c : Calm s) (hk : Keeps s s') (ht : TreeQ s s') (hs : StillQ s s') : After s s' :=
  ⟨c.next hk ht hs, ht c.sound, (hs c.still).2.1, (hs c.still).2.2⟩

theorem Calm.check {s : LW} (c : Calm s) (n p : Nat) : After s (check n p s).1 :=
  c.after (keeps_check n p s) (tree_check n p s) (still_check n p s)

theorem Calm.force {s : LW} (c : Calm s) (n d p : Nat) : After s (force n d p s).1 :=
  c.after (io_force keeps_look (fun p => keeps_check n p) d p s) (io_force tree_look (fun p => tree_check n p) d p s)
    (io_force still_look (fun p => still_check n p) d p s)

theorem visit_all {n d : Nat}
    (ih : ∀ p s s', Calm s → p < s.w.next → Lazy.force n d p s = (s', .val ()) → ∀ q, Below s.w p q → s'.pending q = none)
    (l : List Item) (s s' : LW) (c : Calm s) (hl : ∀ it ∈ l, it.ptr < s.w.next)
    (h : visit (fun q => (Lazy.force n d q).bind fun _ => LM.pure true) l s = (s', .val ())) :
    After s s' ∧ ∀ it ∈ l, ∀ q, Below s.w it.ptr q → s'.pending q = none := by
  induction l generalizing s with
  | nil =>
    cases h
    exact ⟨⟨c, .refl c.sound, fun _ h => h, fun _ => rfl⟩, fun _ h => by cases h⟩
  | cons x l ihl =>
    unfold visit at h
    obtain ⟨s1, b, h1, h2⟩ := bind_eq_val h
    obtain ⟨s2, u, h3, h4⟩ := bind_eq_val h1
    cases h4
    simp only [if_true] at h2
    have a1 := c.force n d x.ptr
    rw [h3] at a1
    have hx := hl x (by simp)
    obtain ⟨a2, h5⟩ := ihl s1 a1.calm (fun it hit => Nat.lt_of_lt_of_le (hl it (by simp [hit])) a1.tree.next) h2
    refine ⟨a1.trans a2, fun it hit q hq => ?_⟩
    rcases List.mem_cons.1 hit with rfl | hit
    · exact a2.pend q (ih _ _ _ c hx h3 q hq)
    · exact h5 it hit q (below_mono c.sound a1.tree hq (hl it (by simp [hit])))

theorem force_all {n d p : Nat} {s s' : LW} (c : Calm s) (hp : p < s.w.next) (h : Lazy.force (n + 1) d p s = (s', .val ()))
    (q : Nat) (hq : Below s.w p q) : s'.pending q = none := by
  induction d generalizing p s s' q with
  | zero => cases h
  | succ d ih =>
    unfold Lazy.force at h
    obtain ⟨s1, u1, h1, h⟩ := bind_eq_val h
    obtain ⟨s2, u2, h2, h3⟩ := bind_eq_val h
    have ih' : ∀ p s s', Calm s → p < s.w.next → Lazy.force (n + 1) d p s = (s', .val ()) → ∀ q, Below s.w p q → s'.pending q = none :=
      fun p s s' c hp h q hq => ih c hp h q hq
    have a1 := c.check (n + 1) p
    have hdone := check_done (fuel := n) (c.calm p)
    rw [h1] at a1 hdone
    have hp1 : p < s1.w.next := Nat.lt_of_lt_of_le hp a1.tree.next
    obtain ⟨a2, hc⟩ := visit_all ih' _ s1 s2 a1.calm (fun it hit => a1.tree.sound.items p .cls it hp1 hit) (forEach_val h2)
    have hp2 : p < s2.w.next := Nat.lt_of_lt_of_le hp1 a2.tree.next
    obtain ⟨a3, hn⟩ := visit_all ih' _ s2 s' a2.calm (fun it hit => a2.tree.sound.items p .nmspace it hp2 hit) (forEach_val h3)
    cases hq with
    | refl => exact a3.pend p (a2.pend p hdone)
    | @cls _ x _ m hm hq =>
      have hx := c.sound.items _ _ _ hp hm
      exact a3.pend q (hc ⟨x, m⟩ ((a1.tree.lists p .cls hp).subset hm) q (below_mono c.sound a1.tree hq hx))
    | @nmspace _ x _ m hm hq =>
      have hx := c.sound.items _ _ _ hp hm
      exact hn ⟨x, m⟩ (((a1.trans a2).tree.lists p .nmspace hp).subset hm) q (below_mono c.sound (a1.trans a2).tree hq hx)

/-! ### callbacks that define into their own container only -/

/-- after its own definition ran, nobody changes a container while its members are visited -/
theorem forEach_free {p : Nat} {k : Cat} {f : Nat → LM Bool} (hf : ∀ q s, FrameIn none s (f q s).1) {s : LW} (w : WF s)
    (hp : p < s.w.next) (hd : s.pending p = none) : forEach p k f s = visit f (s.w.cont p k).items s := by
  have fr := io_visit (frameIn_look none) hf (s.w.cont p k).items s (fun _ e => by cases e) w
  unfold forEach
  dsimp only
  rw [fr.cont p hp hd, if_pos rfl]

theorem force_frame (n d p : Nat) (s : LW) : FrameIn none s (force n d p s).1 :=
  io_force (frameIn_look none) (fun p => frame_check n p) d p s

theorem bind_congr_val {A B : Type} {m : LM A} {f g : A → LM B} {s : LW} (h : ∀ s' a, m s = (s', .val a) → f a s' = g a s') :
    m.bind f s = m.bind g s := by
  unfold LM.bind
  cases e : m s with
  | mk s' r =>
    cases r with
    | val a => exact h s' a e
    | throw _ => rfl
    | ub => rfl
    | diverge => rfl

theorem bind_congr2 {A B : Type} {m m' : LM A} {f g : A → LM B} {s : LW} (hm : m s = m' s)
    (h : ∀ s' a, m s = (s', .val a) → f a s' = g a s') : m.bind f s = m'.bind g s := by
  rw [bind_congr_val h]
  unfold LM.bind
  rw [hm]

theorem visit_congr {f g : Nat → LM Bool} {I : LW → Prop} (hf : ∀ q s, I s → I (f q s).1) (l : List Item)
    (h : ∀ it ∈ l, ∀ s, I s → f it.ptr s = g it.ptr s) (s : LW) (i : I s) : visit f l s = visit g l s := by
  induction l generalizing s with
  | nil => rfl
  | cons x l ih =>
    unfold visit
    have hx := h x (by simp) s i
    have hi := hf x.ptr s i
    unfold LM.bind
    rw [← hx]
    cases e : f x.ptr s with
    | mk s' r =>
      rw [e] at hi
      cases r with
      | val b =>
        cases b
        · rfl
        · exact ih (fun it hit => h it (by simp [hit])) s' hi
      | throw _ => rfl
      | ub => rfl
      | diverge => rfl

/-- what the walk keeps -/
structure Walk (N : Nat) (s : LW) : Prop where
  wf : WF s
  sound : Sound s
  calm : ∀ q, s.running q = false
  next : N ≤ s.w.next

theorem Walk.force {N : Nat} {s : LW} (i : Walk N s) (n d p : Nat) : Walk N (Lazy.force n d p s).1 := by
  have fr := force_frame n d p s (fun _ e => by cases e) i.wf
  exact ⟨fr.wf, (io_force tree_look (fun p => tree_check n p) d p s i.sound).sound,
    fun q => by rw [fr.running]; exact i.calm q, Nat.le_trans i.next fr.next⟩

theorem Walk.check {N : Nat} {s : LW} (i : Walk N s) (n p : Nat) : Walk N (Lazy.check n p s).1 := by
  have fr := frame_check n p s (fun _ e => by cases e) i.wf
  exact ⟨fr.wf, (tree_check n p s i.sound).sound, fun q => by rw [fr.running]; exact i.calm q, Nat.le_trans i.next fr.next⟩

theorem Walk.visit {N : Nat} {s : LW} (i : Walk N s) {f : Nat → LM Bool} (hf : ∀ q s, Walk N s → Walk N (f q s).1) (l : List Item) :
    Walk N (Lazy.visit f l s).1 := by
  induction l generalizing s with
  | nil => exact i
  | cons x l ih =>
    unfold Lazy.visit LM.bind
    have hx := hf x.ptr s i
    cases e : f x.ptr s with
    | mk s' r =>
      rw [e] at hx
      cases r with
      | val b =>
        cases b
        · exact hx
        · exact ih hx
      | throw _ => exact hx
      | ub => exact hx
      | diverge => exact hx

theorem bind_pure_state {A B : Type} (m : LM A) (g : A → B) (s : LW) : ((m.bind fun a => LM.pure (g a)) s).1 = (m s).1 := by
  unfold LM.bind
  cases e : m s with
  | mk s' r => cases r <;> rfl

theorem force_walk {n d p : Nat} {s : LW} (i : Walk 0 s) (hp : p < s.w.next) :
    Lazy.force (n + 1) d p s = walk (n + 1) d p s := by
  induction d generalizing p s with
  | zero => rfl
  | succ d ih =>
    have hfr : ∀ q s, FrameIn none s (((Lazy.force (n + 1) d q).bind fun _ => LM.pure true) s).1 := by
      intro q s; rw [bind_pure_state]; exact force_frame (n + 1) d q s
    have hw : ∀ N q s, Walk N s → Walk N (((Lazy.force (n + 1) d q).bind fun _ => LM.pure true) s).1 := by
      intro N q s i; rw [bind_pure_state]; exact i.force (n + 1) d q
    -- visiting one list
    have one : ∀ s k, Walk 0 s → p < s.w.next → s.pending p = none →
        forEach p k (fun q => (Lazy.force (n + 1) d q).bind fun _ => LM.pure true) s =
        Lazy.visit (fun q => (walk (n + 1) d q).bind fun _ => LM.pure true) (s.w.cont p k).items s := by
      intro s k i hp hd
      rw [forEach_free hfr i.wf hp hd]
      refine visit_congr (I := Walk s.w.next) (hw _) _ (fun it hit s' i' => ?_) s ⟨i.wf, i.sound, i.calm, Nat.le_refl _⟩
      have := i.sound.items p k it hp hit
      unfold LM.bind
      rw [ih ⟨i'.wf, i'.sound, i'.calm, Nat.zero_le _⟩ (Nat.lt_of_lt_of_le this i'.next)]
    unfold Lazy.force walk
    refine bind_congr_val fun s1 u h1 => ?_
    have i1 := i.check (n + 1) p
    have f1 := frame_check (n + 1) p s (fun _ e => by cases e) i.wf
    have hd1 := check_done (fuel := n) (i.calm p)
    rw [h1] at i1 f1 hd1
    have hp1 : p < s1.w.next := Nat.lt_of_lt_of_le hp f1.next
    have e1 := one s1 .cls i1 hp1 hd1
    have i2 := i1.visit (hw 0) (s1.w.cont p .cls).items
    have f2 := io_visit (frameIn_look none) hfr (s1.w.cont p .cls).items s1 (fun _ e => by cases e) i1.wf
    rw [← forEach_free hfr i1.wf hp1 hd1] at i2 f2
    refine bind_congr2 e1 fun s2 a h2 => ?_
    rw [h2] at i2 f2
    exact one s2 .nmspace i2 (Nat.lt_of_lt_of_le hp1 f2.next) (f2.pend p hd1)

/-! ### enumeration by user code -/

theorem execs_append (chk : Nat → LM Unit) (fuel : Nat) (a b : List Cmd) (s : LW) :
    execs chk fuel (a ++ b) s = ((execs chk fuel a).bind fun x => (execs chk fuel b).bind fun y => LM.pure (x ++ y)) s := by
  induction a generalizing s with
  | nil =>
    show execs chk fuel b s = _
    simp only [execs, LM.bind, LM.pure, List.nil_append]
    cases e : execs chk fuel b s with
    | mk s' r => cases r <;> rfl
  | cons c a ih =>
    rw [List.cons_append, execs, execs]
    unfold LM.bind LM.pure
    dsimp only
    cases e : exec chk fuel c s with
    | mk s1 r =>
      cases r with
      | val x =>
        dsimp only
        rw [ih s1]
        unfold LM.bind LM.pure
        dsimp only
        cases e2 : execs chk fuel a s1 with
        | mk s2 r2 =>
          cases r2 with
          | val y =>
            dsimp only
            cases e3 : execs chk fuel b s2 with
            | mk s3 r3 => cases r3 <;> rfl
          | throw _ => rfl
          | ub => rfl
          | diverge => rfl
      | throw _ => rfl
      | ub => rfl
      | diverge => rfl

theorem visit_execs (n : Nat) (func : Nat → List Cmd × Bool) (l : List Item) (s : LW) :
    (visit (fun q => (execs (check n) n (func q).1).bind fun _ => LM.pure (func q).2) l s) =
      ((run n ((visited (fun it => (func it.ptr).2) l).flatMap fun it => (func it.ptr).1) s).1,
        outcome (run n ((visited (fun it => (func it.ptr).2) l).flatMap fun it => (func it.ptr).1) s).2) := by
  induction l generalizing s with
  | nil => rfl
  | cons x l ih =>
    generalize hF : (fun q => (execs (check n) n (func q).1).bind fun _ => LM.pure (func q).2) = F at ih ⊢
    have hx : F x.ptr s = ((execs (check n) n (func x.ptr).1).bind fun _ => LM.pure (func x.ptr).2) s := by rw [← hF]
    unfold visit visited run
    rw [List.flatMap_cons, execs_append]
    unfold LM.bind at hx ⊢
    rw [hx]
    cases e : execs (check n) n (func x.ptr).1 s with
    | mk s1 r =>
      cases r with
      | val a =>
        dsimp only [LM.pure]
        cases hb : (func x.ptr).2 with
        | false => simp [LM.pure, execs, outcome]
        | true =>
          simp only [if_true]
          rw [ih s1]
          unfold run
          generalize execs (check n) n _ s1 = r
          obtain ⟨s2, r⟩ := r
          cases r <;> rfl
      | throw _ => rfl
      | ub => rfl
      | diverge => rfl

end Rtti.Lazy
