#!/usr/bin/env python3
"""Generate lean/Verif/Model/DVBS2Tables.lean from the tables in /repo."""
import re
out=['''import Verif.Model.LDPCEnc

/-!
# DVB-S2 tables

Generated by `scripts/gen/dvbs2.py` from `include/Tools/Code/LDPC/Standard/DVBS2/DVBS2_constants_16200.hpp` and
`DVBS2_constants_64800.hpp`.
-/

namespace Verif.Sparse
''']
tabs=[]
for f in ("16200","64800"):
    path=f"include/Tools/Code/LDPC/Standard/DVBS2/DVBS2_constants_{f}.hpp"
    s=open("/repo/"+path).read()
    for m in re.finditer(r"struct dvbs2_values_(\d+_\d+) .*?\{(.*?)\n\};",s,re.S):
        b=m.group(2)
        t=re.search(r"std::vector<int>\(\{(.*?)\}\)",b,re.S).group(1)
        v=[int(x) for x in re.findall(r"-?\d+",re.sub(r"//.*","",t))]
        d={k:int(x) for k,x in re.findall(r"this->(\w+)\s*=\s*(\d+);",b)}
        l1=s[:m.start()].count("\n")+1; l2=s[:m.end()].count("\n")+1
        out.append(f"/-- `dvbs2_values_{m.group(1)}`, `DVBS2_constants_{f}.hpp:{l1}-{l2}`. -/")
        out.append(f"def dvbs2_{m.group(1)} : DVBS2 where\n  enc := [")
        cur="   "
        for i,x in enumerate(v):
            tok=f" {x}"+("," if i<len(v)-1 else "]")
            if len(cur)+len(tok)>118: out.append(cur); cur="   "
            cur+=tok
        out.append(cur)
        out.append(f"  N := {d['N']}\n  K := {d['K']}\n  NmK := {d['NmK']}\n  M := {d['M']}\n  Q := {d['Q']}\n  lines := {d['N_LINES']}\n")
        tabs.append((f,m.group(1)))
out.append("/-- The cases of the nested switches of `build_dvbs2`, `DVBS2_constants.cpp:58-106`: `N`, `N - K` and the table. -/")
out.append("def dvbs2Cases : List (Nat × Nat × DVBS2) :=")
for i,(f,n) in enumerate(tabs):
    out.append(f"  {',' if i else '['} ({f}, {n.split('_')[1]}, dvbs2_{n})")
out.append("  ]\n")
out.append("/-- The selection of the table, `DVBS2_constants.cpp:54-106`; `N - K` is a signed number. -/")
out.append("def selectDVBS2 (K N : Nat) : Option DVBS2 := (dvbs2Cases.find? fun c => c.1 = N ∧ c.2.1 + K = N).map fun c => c.2.2\n")
out.append('''/-- `build_dvbs2`, `DVBS2_constants.cpp:52-141`. -/
def buildDVBS2 (K N : Nat) : Exec DVBS2 :=
  match selectDVBS2 K N with
  | none => .exc .invalidArgument
  | some d =>
    if K ≠ d.K then .exc .runtimeError
    else if N ≠ d.N then .exc .runtimeError
    else if d.Q ≠ (d.N - d.K) / d.M then .exc .runtimeError
    else if d.K ≠ d.M * d.lines then .exc .runtimeError
    else .ok d

end Verif.Sparse''')
open("/verif/lean/Verif/Model/DVBS2Tables.lean","w").write("\n".join(out)+"\n")
