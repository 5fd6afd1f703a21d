-- run in /verif/lean: lake env lean ../tools/axioms.txt > ../AXIOMS.txt
import Verif
import Lean.Elab.Command
open Lean
run_cmd do
  let env ← getEnv
  let mut out := #[]
  for (n, ci) in env.constants.map₁.toList do
    if (n.getPrefix == `Rtti.Props || n.getPrefix == `Rtti) && (ci matches .thmInfo _) then
      let s := n.getString!
      if s.startsWith "C" && (s.toList[1]!).isDigit then
        let ax ← Lean.collectAxioms n
        let l := (ax.map toString).qsort (· < ·)
        out := out.push (s ++ ": " ++ (if l.isEmpty then "none" else ", ".intercalate l.toList))
  IO.println ("\n".intercalate (out.qsort (· < ·)).toList)
