#!/usr/bin/env python3
"""Print the axioms of every theorem named in MANIFEST.json (run from /verif after `lake build`)."""
import json, re, subprocess, sys, tempfile, os

names = sorted({t for c in json.load(open("MANIFEST.json"))["claims"] for t in c["theorems"]})
with tempfile.NamedTemporaryFile("w", suffix=".lean", delete=False) as f:
    f.write("import Verif\n" + "".join(f"#print axioms {n}\n" for n in names))
out = subprocess.run(["lake", "env", "lean", f.name], cwd="lean", capture_output=True, text=True).stdout
os.unlink(f.name)
allowed = {"propext", "Classical.choice", "Quot.sound"}
bad = [l for l in out.splitlines() if "error:" in l]
for ax in re.findall(r"depends on axioms: \[([^\]]*)\]", out):
    bad += [a for a in re.split(r",\s*", ax.strip()) if a not in allowed]
print(out)
print(len(names), "theorems;", "axioms outside the allowed three: " + ", ".join(bad) if bad else "only propext, Classical.choice, Quot.sound")
sys.exit(bool(bad))
