#!/usr/bin/env python3
"""Write lean/Verif/Model/Tables.lean from the data files of the package (read as text)."""
import pathlib, textwrap

SRC = pathlib.Path("/repo/src/pymiediff/materials/data")
OUT = pathlib.Path(__file__).resolve().parent.parent / "lean/Verif/Model/Tables.lean"

tables, formulas = [], []
for f in sorted(SRC.iterdir()):
    lines = f.read_text(encoding="utf8").split("\n")
    i = lines.index("DATA:")
    typ = lines[i + 1].split("type:")[1].split()
    if typ[0] == "tabulated":
        assert lines[i + 2].strip() == "data: |"
        ind = len(lines[i + 2]) - len(lines[i + 2].lstrip())
        rows = []
        for l in lines[i + 3:]:
            if l.strip() and len(l) - len(l.lstrip()) <= ind:
                break
            rows.append(l)
        text = textwrap.dedent("\n".join(rows)).strip("\n") + "\n"
        tables.append((f.name, text, i + 4))
    else:
        assert typ[0] == "formula"
        rng = [l for l in lines if l.strip().startswith("wavelength_range:")][0].split(":")[1].strip()
        co = [l for l in lines if l.strip().startswith("coefficients:")][0].split(":")[1].strip()
        formulas.append((f.name, int(typ[1]), rng, co, i + 2))

ident = lambda n: "data" + n.split("_")[0]
o = ["""import Lean.Elab.Term
import Lean.ToExpr

/-!
# Data files of `src/pymiediff/materials/data`

Generated by `tools/tables.py`: the `data` entry of every tabulated file and the coefficients of every formula file,
verbatim, as YAML hands them to the loaders (mat.py:40-69).
-/

namespace MieDiff

open Lean in
/-- The characters of a string literal, as a list. -/
elab "chars! " s:str : term => return toExpr s.getString.toList
"""]
for n, t, ln in tables:
    o.append(f"/-- materials/data/{n}:{ln}-. -/\nnoncomputable def {ident(n)} : List (List Char) := [")
    ls = t.rstrip("\n").split("\n")
    o.append(",\n".join(f'  chars! "{l}"' for l in ls) + "]\n")
o.append("/-- All tabulated files: name and lines of the `data` entry. -/\nnoncomputable def shippedTables : List (String × List (List Char)) := [")
o.append(",\n".join(f'  ("{n}", {ident(n)})' for n, _, _ in tables) + "]\n")
o.append("/-- All formula files: name, formula number, `wavelength_range`, `coefficients`. -/\n"
         "noncomputable def shippedFormulas : List (String × Int × List Char × List Char) := [")
o.append(",\n".join(f'  ("{n}", {k}, chars! "{r}", chars! "{c}")' for n, k, r, c, _ in formulas) + "]\n")
o.append("end MieDiff")
OUT.write_text("\n".join(o) + "\n", encoding="utf8")
