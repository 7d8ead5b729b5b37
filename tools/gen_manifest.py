#!/usr/bin/env python3
"""Collect the property theorems (named Cnn_...) of lean/Verif/Props into MANIFEST.json."""
import json, pathlib, re

root = pathlib.Path(__file__).resolve().parent.parent
notes = json.loads((root / "tools" / "manifest_notes.json").read_text())
thms, files = {}, {}
for f in sorted((root / "lean/Verif/Props").rglob("*.lean")):
    for m in re.finditer(r"^theorem (C\d\d+)_(\w+)", f.read_text(), re.M):
        thms.setdefault(m.group(1), []).append(f"PacketRs.{m.group(1)}_{m.group(2)}")
        files.setdefault(m.group(1), set()).add("Props/" + f.stem)
claims = []
for line in (root / "properties.jsonl").read_text().splitlines():
    pid = json.loads(line)["id"]
    if pid not in thms:
        print("no theorem for", pid)
        continue
    n = notes.get(pid, {})
    partial = any(t.endswith("_partial") for t in thms[pid])
    claims.append({"property": pid, "status": n.get("status", "partial" if partial else "proved"),
                   "theorems": thms[pid], "note": f"{n.get('note', '')} ({', '.join(sorted(files[pid]))})".strip()})
(root / "MANIFEST.json").write_text(json.dumps({"claims": claims}, indent=1) + "\n")
