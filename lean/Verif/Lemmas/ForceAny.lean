import Verif.Lemmas.Force
/-! Recursive forcing when callbacks may install further definitions. -/
set_option autoImplicit false
namespace Rtti.Props
open Lazy Spec

structure Steady (s : LW) : Prop where
  top : Top s
  sound : Sound s

/-- `s'` comes after `s` -/
structure Goes (s s' : LW) : Prop where
  steady : Steady s'
  tree : Tree s s'
  log : s.log <+: s'.log

theorem Goes.trans {a b c : LW} (h : Goes a b) (h' : Goes b c) : Goes a c :=
  ⟨h'.steady, ⟨h'.tree.sound, Nat.le_trans h.tree.next h'.tree.next,
    fun o k ho => (h.tree.lists o k ho).trans (h'.tree.lists o k (Nat.lt_of_lt_of_le ho h.tree.next))⟩, h.log.trans h'.log⟩

theorem Steady.check {s : LW} (c : Steady s) (n p : Nat) : Goes s (check n p s).1 :=
  have t := tree_check n p s c.sound
  ⟨⟨c.top.check n p, t.sound⟩, t, grows_check n p s⟩

theorem Steady.force {s : LW} (c : Steady s) (n d p : Nat) : Goes s (force n d p s).1 :=
  have t := io_force tree_look (fun p => tree_check n p) d p s c.sound
  ⟨⟨c.top.force n d p, t.sound⟩, t, io_force grows_look (fun p => grows_check n p) d p s⟩

/-- all that was accepted for `q` in `s` has begun in `s'` -/
def Begun (s s' : LW) (q : Nat) : Prop := installedFor q s.log <+: startedFor q s'.log

theorem Begun.widen {a b c d : LW} {q : Nat} (h1 : a.log <+: b.log) (h2 : c.log <+: d.log) (h : Begun b c q) : Begun a d q :=
  (installedFor_prefix h1).trans (h.trans (startedFor_prefix h2))

theorem visit_begun {n d : Nat}
    (ih : ∀ p s s', Steady s → p < s.w.next → force n d p s = (s', .val ()) → ∀ q, Below s.w p q → Begun s s' q)
    (l : List Item) (s s' : LW) (c : Steady s) (hl : ∀ it ∈ l, it.ptr < s.w.next)
    (h : visit (fun q => (force n d q).bind fun _ => LM.pure true) l s = (s', .val ())) :
    Goes s s' ∧ ∀ it ∈ l, ∀ q, Below s.w it.ptr q → Begun s s' q := by
  induction l generalizing s with
  | nil =>
    cases h
    exact ⟨⟨c, .refl c.sound, List.prefix_refl _⟩, fun _ h => by cases h⟩
  | cons x l ihl =>
    unfold visit at h
    obtain ⟨s1, b, h1, h2⟩ := bind_eq_val h
    obtain ⟨s2, u, h3, h4⟩ := bind_eq_val h1
    cases h4
    simp only [if_true] at h2
    have a1 := c.force n d x.ptr
    rw [h3] at a1
    have hx := hl x (by simp)
    obtain ⟨a2, h5⟩ := ihl s1 a1.steady (fun it hit => Nat.lt_of_lt_of_le (hl it (by simp [hit])) a1.tree.next) h2
    refine ⟨a1.trans a2, fun it hit q hq => ?_⟩
    rcases List.mem_cons.1 hit with rfl | hit
    · exact (ih _ _ _ c hx h3 q hq).widen (List.prefix_refl _) a2.log
    · exact (h5 it hit q (below_mono c.sound a1.tree hq (hl it (by simp [hit])))).widen a1.log (List.prefix_refl _)

theorem force_begun {n d p : Nat} {s s' : LW} (c : Steady s) (hp : p < s.w.next) (h : force (n + 1) d p s = (s', .val ()))
    (q : Nat) (hq : Below s.w p q) : Begun s s' q := by
  induction d generalizing p s s' q with
  | zero => cases h
  | succ d ih =>
    unfold Lazy.force at h
    obtain ⟨s1, u1, h1, h⟩ := bind_eq_val h
    obtain ⟨s2, u2, h2, h3⟩ := bind_eq_val h
    have ih' : ∀ p s s', Steady s → p < s.w.next → Lazy.force (n + 1) d p s = (s', .val ()) → ∀ q, Below s.w p q → Begun s s' q :=
      fun p s s' c hp h q hq => ih c hp h q hq
    have a1 := c.check (n + 1) p
    have hdone := check_done (fuel := n) (c.top.calm p)
    rw [h1] at a1 hdone
    have hp1 : p < s1.w.next := Nat.lt_of_lt_of_le hp a1.tree.next
    obtain ⟨a2, hc⟩ := visit_begun ih' _ s1 s2 a1.steady (fun it hit => a1.tree.sound.items p .cls it hp1 hit) (forEach_val h2)
    have hp2 : p < s2.w.next := Nat.lt_of_lt_of_le hp1 a2.tree.next
    obtain ⟨a3, hn⟩ := visit_begun ih' _ s2 s' a2.steady (fun it hit => a2.tree.sound.items p .nmspace it hp2 hit) (forEach_val h3)
    cases hq with
    | refl =>
      have h4 := (a1.steady.top.account p).1
      rw [hdone] at h4
      simp only [Option.toList_none, List.append_nil] at h4
      have : Begun s s1 p := by
        unfold Begun
        rw [← h4]
        exact installedFor_prefix a1.log
      exact this.widen (List.prefix_refl _) (a2.trans a3).log
    | @cls _ x _ m hm hq =>
      have hx := c.sound.items _ _ _ hp hm
      exact (hc ⟨x, m⟩ ((a1.tree.lists p .cls hp).subset hm) q (below_mono c.sound a1.tree hq hx)).widen a1.log a3.log
    | @nmspace _ x _ m hm hq =>
      have hx := c.sound.items _ _ _ hp hm
      exact (hn ⟨x, m⟩ (((a1.trans a2).tree.lists p .nmspace hp).subset hm) q (below_mono c.sound (a1.trans a2).tree hq hx)).widen (a1.trans a2).log
        (List.prefix_refl _)

end Rtti.Props
