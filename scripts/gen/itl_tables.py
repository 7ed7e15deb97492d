import re
src=open('/repo/src/Tools/Interleaver/LTE/Interleaver_core_LTE.cpp').read()
rows=re.findall(r'f_1\[\s*(\d+)\]\s*=\s*(\d+);\s*f_2\[\s*(\d+)\]\s*=\s*(\d+);',src)
assert all(a==c for a,b,c,d in rows); print(len(rows))
L=[(int(a),int(b),int(d)) for a,b,c,d in rows]
src2=open('/repo/src/Tools/Interleaver/ARP/Interleaver_core_ARP_DVB_RCS2.cpp').read()
R2=[tuple(map(int,m)) for m in re.findall(r'case (\d+):.*?\n\s*p\s*=\s*(\d+);\s*q0\s*=\s*(\d+);\s*q1\s*=\s*(\d+);\s*q2\s*=\s*(\d+);\s*q3\s*=\s*(\d+);',src2)]
print(len(R2))
src1=open('/repo/src/Tools/Interleaver/ARP/Interleaver_core_ARP_DVB_RCS1.cpp').read()
params=[(11,24,0,24),(7,34,32,2),(13,106,108,2),(23,112,4,116),(17,116,72,188),(11,6,8,2),(13,0,4,8),(13,10,4,2),(19,2,16,6),(19,428,224,652),(19,2,16,6),(19,376,224,600)]
R1=[(int(a),)+params[int(b)] for a,b in re.findall(r'case (\d+):\s*\n\s*p0 = parameters\[(\d+)\]\[0\];',src1)]
print(len(R1))
def fmt(rows,per=6):
    out=[];
    for i in range(0,len(rows),per): out.append("   "+", ".join(str(r) for r in rows[i:i+per]))
    return "[\n"+",\n".join(out)+"]"
t=f'''/-!
# Interleaver parameter tables of the standards

Copied from the C++ source (by script) so that the whole table is quantified over.
-/

namespace Verif.Interleaver

/-- LTE: `(K, f_1[K], f_2[K])`.
Models `src/Tools/Interleaver/LTE/Interleaver_core_LTE.cpp:30-219` (the two `std::map`s). -/
def lteTable : List (Nat × Nat × Nat) := {fmt(L)}

/-- DVB-RCS1: `(size, p0, p1, p2, p3)`.
Models `include/Tools/Interleaver/ARP/Interleaver_core_ARP_DVB_RCS1.hpp:22-33` and the `switch` of
`src/Tools/Interleaver/ARP/Interleaver_core_ARP_DVB_RCS1.cpp:14-94`. -/
def rcs1Table : List (Nat × Nat × Nat × Nat × Nat) := {fmt(R1,4)}

/-- DVB-RCS2: `(size, p, q0, q1, q2, q3)`.
Models the `switch` of `src/Tools/Interleaver/ARP/Interleaver_core_ARP_DVB_RCS2.cpp:14-213`. -/
def rcs2Table : List (Nat × Nat × Nat × Nat × Nat × Nat) := {fmt(R2,4)}

/-- CCSDS: `(size, k_1, k_2)`.
Models `src/Tools/Interleaver/CCSDS/Interleaver_core_CCSDS.cpp:30-35`. -/
def ccsdsTable : List (Nat × Nat × Nat) :=
  [(1784, 8, 223 * 1), (3568, 8, 223 * 2), (7136, 8, 223 * 4), (8920, 8, 223 * 5)]

end Verif.Interleaver
'''
open('/verif/lean/Verif/Model/InterleaverTables.lean','w').write(t)
