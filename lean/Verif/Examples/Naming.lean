import Verif.Model.CType
import Verif.Model.Basic
/-
A naming of types that tells all types apart (the theorems about type ids assume one; `type_name<T>()`
in /repo/include/rtti/typename.h is one within a program without same-named types in anonymous namespaces).
-/
set_option autoImplicit false
namespace Rtti.Ex

def unary : Nat → Str
  | 0 => ['0']
  | n + 1 => '1' :: unary n

def bit (b : Bool) : Str := [if b then '1' else '0']

def kindNo : Kind → Nat
  | .void => 0 | .integral => 1 | .floating => 2 | .enum => 3 | .func => 4 | .union => 5 | .cls => 6
  | .memberPtr => 7 | .other => 8

def traits (t : Traits) : Str :=
  bit t.standardLayout ++ (bit t.trivial ++ (bit t.abstract ++ (bit t.polymorphic ++ (bit t.defaultC ++ (bit t.copyC ++
    (bit t.copyA ++ (bit t.moveC ++ (bit t.moveA ++ (bit t.destructible ++ bit t.eq)))))))))

def name : CType → Str
  | .base b q => 'b' :: (unary b.id ++ (unary (kindNo b.kind) ++ (unary b.size ++ (traits b.traits ++ (bit q.c ++ bit q.v)))))
  | .ptr q t => 'p' :: (bit q.c ++ (bit q.v ++ name t))
  | .arr n t => 'a' :: (unary n ++ name t)

def rname (T : RType) : Str :=
  (match T.ref with | .none => 'v' | .lref => 'l' | .rref => 'r') :: name T.t

theorem unary_inj {n m : Nat} {r s : Str} (h : unary n ++ r = unary m ++ s) : n = m ∧ r = s := by
  induction n generalizing m with
  | zero => cases m <;> simp_all [unary]
  | succ n ih =>
    cases m with
    | zero => simp [unary] at h
    | succ m =>
      simp only [unary, List.cons_append, List.cons.injEq, true_and] at h
      obtain ⟨h1, h2⟩ := ih h
      exact ⟨by rw [h1], h2⟩

theorem bit_inj {a b : Bool} {r s : Str} (h : bit a ++ r = bit b ++ s) : a = b ∧ r = s := by
  cases a <;> cases b <;> simp_all [bit]

theorem kindNo_inj {a b : Kind} (h : kindNo a = kindNo b) : a = b := by
  cases a <;> cases b <;> first | rfl | cases h

theorem traits_inj {a b : Traits} {r s : Str} (h : traits a ++ r = traits b ++ s) : a = b ∧ r = s := by
  simp only [traits, List.append_assoc] at h
  obtain ⟨h1, h⟩ := bit_inj h
  obtain ⟨h2, h⟩ := bit_inj h
  obtain ⟨h3, h⟩ := bit_inj h
  obtain ⟨h4, h⟩ := bit_inj h
  obtain ⟨h5, h⟩ := bit_inj h
  obtain ⟨h6, h⟩ := bit_inj h
  obtain ⟨h7, h⟩ := bit_inj h
  obtain ⟨h8, h⟩ := bit_inj h
  obtain ⟨h9, h⟩ := bit_inj h
  obtain ⟨h10, h⟩ := bit_inj h
  obtain ⟨h11, h⟩ := bit_inj h
  cases a; cases b
  simp_all

theorem name_inj {t u : CType} {r s : Str} (h : name t ++ r = name u ++ s) : t = u ∧ r = s := by
  induction t generalizing u with
  | base b q =>
    cases u with
    | base b' q' =>
      simp only [name, List.cons_append, List.cons.injEq, true_and, List.append_assoc] at h
      obtain ⟨h1, h⟩ := unary_inj h
      obtain ⟨h2, h⟩ := unary_inj h
      obtain ⟨h3, h⟩ := unary_inj h
      obtain ⟨h4, h⟩ := traits_inj h
      obtain ⟨h5, h⟩ := bit_inj h
      obtain ⟨h6, h⟩ := bit_inj h
      have h2 := kindNo_inj h2
      cases b; cases b'; cases q; cases q'
      simp_all
    | _ => simp [name] at h
  | ptr q t ih =>
    cases u with
    | ptr q' t' =>
      simp only [name, List.cons_append, List.cons.injEq, true_and, List.append_assoc] at h
      obtain ⟨h1, h⟩ := bit_inj h
      obtain ⟨h2, h⟩ := bit_inj h
      obtain ⟨rfl, h⟩ := ih h
      cases q; cases q'
      simp_all
    | _ => simp [name] at h
  | arr n t ih =>
    cases u with
    | arr n' t' =>
      simp only [name, List.cons_append, List.cons.injEq, true_and, List.append_assoc] at h
      obtain ⟨h1, h⟩ := unary_inj h
      obtain ⟨rfl, h⟩ := ih h
      simp_all
    | _ => simp [name] at h

theorem rname_injective : Function.Injective rname := by
  intro ⟨r, t⟩ ⟨r', t'⟩ h
  simp only [rname, List.cons.injEq] at h
  obtain ⟨h1, h2⟩ := h
  obtain ⟨rfl, _⟩ := name_inj (r := []) (s := []) (by simpa using h2)
  cases r <;> cases r' <;> simp_all

theorem rname_ne (T : RType) : rname T ≠ [] := by simp [rname]

end Rtti.Ex
