import Verif.Model.Signature
import Verif.Spec.Signature
import Verif.Lemmas.Define
namespace Rtti
open Spec

/-- the names after the first, each preceded by the separator -/
def tailText (ns : List Str) : Str := (ns.map ([',', ' '] ++ ·)).flatten

theorem writeNames_false (ns : List Str) (os : Str) : (writeNames (os, false) ns).1 = os ++ tailText ns := by
  induction ns generalizing os with
  | nil => simp [writeNames, tailText]
  | cons n ns ih => simp [writeNames, ih, tailText]

theorem signatureText_nil (n : Str) : signatureText n [] = n ++ ['(', ')'] := by
  simp [signatureText, writeNames]

theorem signatureText_cons (n a : Str) (as : List Str) :
    signatureText n (a :: as) = n ++ '(' :: (a ++ (tailText as ++ [')'])) := by
  simp [signatureText, writeNames, writeNames_false]

theorem signatureText_paren (n : Str) (as : List Str) : ∃ r, signatureText n as = n ++ '(' :: r := by
  cases as with
  | nil => exact ⟨_, signatureText_nil n⟩
  | cons a as => exact ⟨_, signatureText_cons n a as⟩

theorem signatureText_ne_nil (n : Str) (as : List Str) : signatureText n as ≠ [] := by
  obtain ⟨r, h⟩ := signatureText_paren n as
  rw [h]; simp

/-- the first ')' or ',' outside brackets ends the name -/
theorem Balanced.split {a b r r' : Str} {x y : Char} (hx : x = ',' ∨ x = ')') (hy : y = ',' ∨ y = ')')
    (d : Nat) (ha : Balanced d a) (hb : Balanced d b) (e : a ++ x :: r = b ++ y :: r') :
    a = b ∧ x = y ∧ r = r' := by
  induction a generalizing b d with
  | nil =>
    cases b with
    | nil => simpa using e
    | cons c cs =>
      exfalso
      simp only [Balanced] at ha
      subst ha
      simp only [List.nil_append, List.cons_append, List.cons.injEq] at e
      obtain ⟨rfl, _⟩ := e
      rcases hx with rfl | rfl <;> simp [Balanced, isOpen, isClose] at hb
  | cons c cs ih =>
    cases b with
    | nil =>
      exfalso
      simp only [Balanced] at hb
      subst hb
      simp only [List.nil_append, List.cons_append, List.cons.injEq] at e
      obtain ⟨rfl, _⟩ := e
      rcases hy with rfl | rfl <;> simp [Balanced, isOpen, isClose] at ha
    | cons c' cs' =>
      simp only [List.cons_append, List.cons.injEq] at e
      obtain ⟨rfl, e⟩ := e
      simp only [Balanced] at ha hb
      split at ha
      · rename_i h; rw [if_pos h] at hb
        obtain ⟨rfl, h2⟩ := ih _ ha hb e; exact ⟨rfl, h2⟩
      · rename_i h; rw [if_neg h] at hb
        split at ha
        · rename_i h'; rw [if_pos h'] at hb
          obtain ⟨d1, rfl, ha⟩ := ha
          obtain ⟨d2, e2, hb⟩ := hb
          cases e2
          obtain ⟨rfl, h2⟩ := ih _ ha hb e; exact ⟨rfl, h2⟩
        · rename_i h'; rw [if_neg h'] at hb
          obtain ⟨rfl, h2⟩ := ih _ ha.2 hb.2 e; exact ⟨rfl, h2⟩

theorem tail_injective {as bs : List Str} {a b : Str} (ha : Balanced 0 a) (hb : Balanced 0 b)
    (has : ∀ x ∈ as, Balanced 0 x) (hbs : ∀ x ∈ bs, Balanced 0 x)
    (e : a ++ (tailText as ++ [')']) = b ++ (tailText bs ++ [')'])) : a = b ∧ as = bs := by
  induction as generalizing a b bs with
  | nil =>
    cases bs with
    | nil =>
      obtain ⟨rfl, _⟩ := Balanced.split (.inr rfl) (.inr rfl) 0 ha hb (r := []) (r' := []) (by simpa [tailText] using e)
      exact ⟨rfl, rfl⟩
    | cons c cs =>
      have := Balanced.split (x := ')') (y := ',') (.inr rfl) (.inl rfl) 0 ha hb (r := [])
        (r' := ' ' :: (c ++ (tailText cs ++ [')']))) (by simpa [tailText] using e)
      exact absurd this.2.1 (by decide)
  | cons c cs ih =>
    cases bs with
    | nil =>
      have := Balanced.split (x := ',') (y := ')') (.inl rfl) (.inr rfl) 0 ha hb (r' := [])
        (r := ' ' :: (c ++ (tailText cs ++ [')']))) (by simpa [tailText] using e)
      exact absurd this.2.1 (by decide)
    | cons c' cs' =>
      obtain ⟨rfl, _, h3⟩ := Balanced.split (x := ',') (y := ',') (.inl rfl) (.inl rfl) 0 ha hb
        (r := ' ' :: (c ++ (tailText cs ++ [')']))) (r' := ' ' :: (c' ++ (tailText cs' ++ [')'])))
        (by simpa [tailText] using e)
      simp only [List.cons.injEq, true_and] at h3
      obtain ⟨rfl, h⟩ := ih (has c (by simp)) (hbs c' (by simp)) (fun x hx => has x (by simp [hx]))
        (fun x hx => hbs x (by simp [hx])) h3
      exact ⟨rfl, by rw [h]⟩

theorem name_split {n m r r' : Str} (hn : '(' ∉ n) (hm : '(' ∉ m) (e : n ++ '(' :: r = m ++ '(' :: r') :
    n = m ∧ r = r' := by
  induction n generalizing m with
  | nil =>
    cases m with
    | nil => simpa using e
    | cons c cs => simp at e hm; exact absurd e.1 hm.1
  | cons c cs ih =>
    cases m with
    | nil => simp at e hn; exact absurd e.1.symm hn.1
    | cons c' cs' =>
      simp only [List.cons_append, List.cons.injEq] at e
      simp only [List.mem_cons, not_or] at hn hm
      obtain ⟨rfl, e⟩ := e
      obtain ⟨rfl, h⟩ := ih hn.2 hm.2 e
      exact ⟨rfl, h⟩

end Rtti
