-- Lists the axioms each property theorem depends on.
-- Run from lean/:  cp ../tools/axioms-listing.txt /tmp/x.lean && lake env lean /tmp/x.lean > ../AXIOMS.txt
import Verif
import Lean
open Lean

run_cmd
  let env ← getEnv
  let mut names : Array Name := #[]
  for m in env.header.moduleNames, d in env.header.moduleData do
    if (`Verif.Props).isPrefixOf m then
      for n in d.constNames do
        if let .str _ s := n then
          let t := s.toList.drop 1
          let k := (t.takeWhile Char.isDigit).length
          if s.startsWith "C" && (k == 2 || k == 3) && t[k]? == some '_' then
            names := names.push n
  for n in names.qsort (fun a b => a.toString < b.toString) do
    if let some (.thmInfo _) := env.find? n then
      let axs ← collectAxioms n
      let l := (axs.map toString).qsort (· < ·)
      IO.println s!"{n}: {", ".intercalate l.toList}"
      (← IO.getStdout).flush
