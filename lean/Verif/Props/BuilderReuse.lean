import Verif.Spec.BuilderReuse
import Verif.Props.Builder
/-! C51 for builder objects with a name: several statements that start from one object. -/
set_option autoImplicit false
namespace Rtti.Props
open Rtti Spec World Builder

section
variable {chk : Ptr → LM Unit} {fuel : Nat}

/-- every member function returns what it made of its object -/
private theorem call_same (b : Bld) (c : BCmd) (s s' : BS) (r : Bld × Bld) (h : call chk fuel b c s = (s', .val r)) : r.1 = r.2 := by
  unfold call at h
  cases c <;> simp only [lib] at h <;> (repeat' split at h) <;> cases h <;> rfl

private theorem after {st : List (Option Ptr)} {o : Option Ptr} {b : Bld} {cs : List BCmd} {s : BS} {q : BW × Res (Option Ptr)}
    {rest : List (List BCmd)} {k : BM (Option Ptr × Option Ptr)}
    (h : SameEnd o st (chain chk fuel b cs s) q)
    {b1 : Bld} (hk : ∀ s', SameEnds st (statements chk fuel b1 rest ⟨s', st⟩) (k s')) :
    SameEnds st (match chain chk fuel b cs s with
      | (s'', .val _) => statements chk fuel b1 rest s''
      | (s'', .throw e) => (s'', .throw e)
      | (s'', .ub) => (s'', .ub)
      | (s'', .diverge) => (s'', .diverge)) (BM.bind (fun _ => q) (fun _ => k) q.1) := by
  generalize chain chk fuel b cs s = r at h
  obtain ⟨s1, r | e | _ | _⟩ := r <;> obtain ⟨t, q | e' | _ | _⟩ := q <;> simp only [SameEnd] at h <;>
    first | exact h.elim | skip
  · obtain ⟨rfl, _⟩ := h; exact hk t
  · exact h
  · exact h
  · exact h

/-- a call that opens a scope, the rest of the statement, the other statements -/
private theorem opening {o cur : Option Ptr} {st : List (Option Ptr)} {s : BW} {c : BCmd} {body xs : List Node} {rest : List (List BCmd)}
    {q : BW × Res (Option Ptr)} {k : Option Ptr → BM (Option Ptr × Option Ptr)}
    (h : match call chk fuel ⟨cur, o⟩ c ⟨s, st⟩, q with
      | (s, .val r), (s', .val p) => s = ⟨s', o :: st⟩ ∧ r = (⟨p, p⟩, ⟨p, p⟩)
      | (s, .throw e), (s', .throw e') => s.b = s' ∧ e = e'
      | (s, .ub), (s', .ub) => s.b = s'
      | (s, .diverge), (s', .diverge) => s.b = s'
      | _, _ => False)
    (hk : ∀ r s', SameEnds st (statements chk fuel ⟨r, r⟩ rest ⟨s', st⟩) (k r s')) :
    SameEnds st (statements chk fuel ⟨cur, o⟩ ((c :: (texts body ++ [.end] ++ texts xs)) :: rest) ⟨s, st⟩)
      (BM.bind (fun _ => q) (fun r => (defines chk fuel r r body).bind fun _ => (defines chk fuel o o xs).bind fun _ => k r) q.1) := by
  simp only [statements]
  generalize call chk fuel ⟨cur, o⟩ c ⟨s, st⟩ = r at h
  obtain ⟨s1, r | e | _ | _⟩ := r <;> obtain ⟨t, q | e' | _ | _⟩ := q <;> dsimp only at h <;>
    first | exact h.elim | skip
  · obtain ⟨rfl, rfl⟩ := h
    have h1 := scope_end (chk := chk) (fuel := fuel) (o := o) (r := q) (st := st) (body := body) (s := t) fun cur st s => defines_same body q cur st s
    have h2 : SameEnd o st (chain chk fuel ⟨q, q⟩ (texts body ++ [.end] ++ texts xs) ⟨t, o :: st⟩)
        (BM.bind (fun _ => (defines chk fuel q q body).bind (fun _ => BM.pure o) t) (fun cur => defines chk fuel o cur xs) t) := by
      rw [chain_append]
      exact SameEnd.andThen h1 fun cur s => defines_same xs o cur st s
    have h3 := after (rest := rest) (k := k q) h2 (hk q)
    simp only [BM.bind]
    simp only [BM.bind] at h3
    generalize defines chk fuel q q body t = d at h3
    obtain ⟨t1, d | e | _ | _⟩ := d
    · exact h3
    · exact h3
    · exact h3
    · exact h3
  · exact h
  · exact h
  · exact h

/-- another call, the rest of the statement, the other statements -/
private theorem plain {o cur : Option Ptr} {st : List (Option Ptr)} {s : BW} {c : BCmd} {x : Node} {xs : List Node} {rest : List (List BCmd)}
    {k : Option Ptr → BM (Option Ptr × Option Ptr)} (hx : x.text = [c])
    (hk : ∀ cur s', SameEnds st (statements chk fuel ⟨cur, o⟩ rest ⟨s', st⟩) (k cur s')) :
    SameEnds st (statements chk fuel ⟨cur, o⟩ ((c :: texts xs) :: rest) ⟨s, st⟩)
      ((x.define chk fuel o cur).bind (fun cur' => (defines chk fuel o cur' xs).bind fun _ => k cur') s) := by
  have h := define_same (chk := chk) (fuel := fuel) x o cur st s
  rw [hx] at h
  simp only [chain] at h
  simp only [statements, BM.bind]
  have hc := call_same (chk := chk) (fuel := fuel) ⟨cur, o⟩ c ⟨s, st⟩
  generalize call chk fuel ⟨cur, o⟩ c ⟨s, st⟩ = r at h hc
  generalize x.define chk fuel o cur s = q at h
  obtain ⟨s1, r | e | _ | _⟩ := r <;> obtain ⟨t, q | e' | _ | _⟩ := q <;> simp only [SameEnd] at h <;>
    first | exact h.elim | skip
  · obtain ⟨rfl, h⟩ := h
    dsimp only
    rw [hc _ r rfl, h]
    exact after (rest := rest) (k := k q) (defines_same xs o q st t) (hk q)
  · exact h
  · exact h
  · exact h

/-- C51 for a builder object with a name: exactly what statements that start from it define, whatever it was at. A statement starts where the first call of
    the one before led, not where that statement ended. -/
theorem C51_reuse (xss : List (List Node)) (o cur : Option Ptr) (s : BS) :
    SameEnds s.stack (statements chk fuel ⟨cur, o⟩ (xss.map texts) s) (definesEach chk fuel o cur xss s.b) := by
  obtain ⟨s, st⟩ := s
  induction xss generalizing o cur s with
  | nil => exact ⟨rfl, rfl⟩
  | cons xs rest ih =>
    cases xs with
    | nil => exact ih o cur s
    | cons x xs =>
      cases x with
      | nmspace n body =>
        simp only [List.map_cons, texts, Node.text, List.cons_append, definesEach]
        refine opening (q := (BM.on o fun c => BM.lib (Lazy.op chk fuel (.createNamespace c n))) s) ?_ fun r s' => ih r r s'
        simp only [call]
        cases o with
        | none => exact rfl
        | some c =>
          simp only [lib_eq, BM.on]
          generalize BM.lib (Lazy.op chk fuel (.createNamespace c n)) s = r
          obtain ⟨b, r | e | _ | _⟩ := r
          · exact ⟨rfl, rfl⟩
          · exact ⟨rfl, rfl⟩
          · exact rfl
          · exact rfl
      | cls n t k body =>
        simp only [List.map_cons, texts, Node.text, List.cons_append, definesEach]
        refine opening (q := (BM.on o (enterClass chk fuel n t k)) s) ?_ fun r s' => ih r r s'
        simp only [call]
        cases o with
        | none => exact rfl
        | some c =>
          simp only [lib_eq, BM.on, makeCtors_eq, enterClass]
          simp only [BM.bind]
          generalize BM.lib (Lazy.op chk fuel (.registerType t)) s = r
          obtain ⟨b, r | e | _ | _⟩ := r
          · dsimp only
            generalize BM.lib (Lazy.op chk fuel (.createClass c n t)) b = r
            obtain ⟨b, r | e | _ | _⟩ := r
            · dsimp only
              cases r with
              | none =>
                generalize k.ctors = cs
                cases cs with
                | nil => exact ⟨rfl, rfl⟩
                | cons c cs => exact rfl
              | some p =>
                dsimp only
                have hm : (if k.ctors.isEmpty then BM.pure () else
                    seqLib (List.map (fun c => Lazy.op chk fuel (.createConstructor p (ctorSignature c) true)) k.ctors) : BM Unit) =
                      seqLib (List.map (fun c => Lazy.op chk fuel (.createConstructor p (ctorSignature c) true)) k.ctors) := by
                  cases k.ctors <;> rfl
                rw [hm]
                generalize seqLib (List.map (fun c => Lazy.op chk fuel (.createConstructor p (ctorSignature c) true)) k.ctors) b = r
                obtain ⟨b, r | e | _ | _⟩ := r
                · exact ⟨rfl, rfl⟩
                · exact ⟨rfl, rfl⟩
                · exact rfl
                · exact rfl
            · exact ⟨rfl, rfl⟩
            · exact rfl
            · exact rfl
          · exact ⟨rfl, rfl⟩
          · exact rfl
          · exact rfl
      | _ =>
        simp only [List.map_cons, texts, Node.text, List.cons_append, List.nil_append, definesEach]
        exact plain rfl fun cur s' => ih o cur s'

/-- Statements that do not begin with a scope leave the object at its container: they define what one chain in it would, but for what attributes and elements
    are for. -/
theorem C51_reuse_partial (xss : List (List Node)) (o cur : Option Ptr) (s s' : BS) (b : Bld)
    (hx : ∀ xs ∈ xss, ∀ n t k body, xs.head? ≠ some (.nmspace n body) ∧ xs.head? ≠ some (.cls n t k body))
    (hr : statements chk fuel ⟨cur, o⟩ (xss.map texts) s = (s', .val b)) : b.cont = o ∧ s'.stack = s.stack := by
  have h := C51_reuse (chk := chk) (fuel := fuel) xss o cur s
  rw [hr] at h
  have hd : ∀ r, (definesEach chk fuel o cur xss s.b).2 = .val r → r.2 = o := by
    clear hr h
    obtain ⟨s, st⟩ := s
    induction xss generalizing cur s with
    | nil => rintro r ⟨⟩; rfl
    | cons xs rest ih =>
      have ih := fun cur s => ih cur (fun xs h => hx xs (List.mem_cons_of_mem _ h)) s
      cases xs with
      | nil => exact ih cur s
      | cons x xs =>
        intro r h
        have hx := hx _ List.mem_cons_self
        cases x with
        | nmspace n body => exact absurd rfl (hx n 0 ⟨false, false, false, [], []⟩ body).1
        | cls n t k body => exact absurd rfl (hx n t k body).2
        | _ =>
          simp only [definesEach, BM.bind] at h
          split at h <;> first | (cases h; done) | skip
          split at h <;> first | (cases h; done) | skip
          exact ih _ _ r h
  generalize definesEach chk fuel o cur xss s.b = q at h hd
  obtain ⟨t, q | e | _ | _⟩ := q <;> simp only [SameEnds] at h
  obtain ⟨rfl, rfl⟩ := h
  exact ⟨hd q rfl, rfl⟩

end

-- three statements on `global_define()`: the third is in the namespace the second opened
example :
    let r := statements (Lazy.check 3) 30 (start globalNs) ([[.enum ['e'], .element ['x'] 1], [.nmspace ['a'] [.nmspace ['c'] []], .enum ['g']],
      [.nmspace ['b'] []]].map texts) Builder.init
    r.2 = .val ⟨some 6, some 6⟩ ∧ r.1.b.l.w.getItem 3 .nmspace ['b'] = .val (some 6) ∧ r.1.b.l.w.getItem globalNs .enum ['g'] = .val (some 5) :=
  ⟨by decide +kernel, by decide +kernel, by decide +kernel⟩
end Rtti.Props
