#!/usr/bin/env python3
"""Write AXIOMS.txt: the axioms each property theorem depends on.  Run after `lake build`."""
import os, pathlib, subprocess, tempfile

SRC = r'''
/- Run in /verif/lean after `lake build`: `lake env lean ../tools/axioms.lean > ../AXIOMS.txt`.
Prints, for every property theorem, the axioms it depends on (what `#print axioms` shows). -/
import Verif
import Lean
open Lean Elab Command
run_cmd do
  let env ← getEnv
  let mut lines : Array String := #[]
  for (n, c) in env.constants.toList do
    if let .thmInfo _ := c then
      if (`PacketRs).isPrefixOf n && !n.isInternal && n.getPrefix == `PacketRs then
        let s := n.getString!
        if s.startsWith "C" && (s.drop 1).front.isDigit then
          let ax ← liftCoreM (collectAxioms n)
          lines := lines.push s!"{s}: {", ".intercalate (ax.toList.map toString |>.mergeSort)}"
  for l in lines.qsort (· < ·) do IO.println l
'''

root = pathlib.Path(__file__).resolve().parent.parent
with tempfile.NamedTemporaryFile("w", suffix=".lean", delete=False) as f:
    f.write(SRC)
out = subprocess.run(["lake", "env", "lean", f.name], cwd=root / "lean", check=True, capture_output=True, text=True).stdout
os.unlink(f.name)
(root / "AXIOMS.txt").write_text(out)
