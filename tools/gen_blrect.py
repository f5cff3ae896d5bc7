#!/usr/bin/env python3
"""Generates lean/Verif/Model/BlRectTable.lean from /repo/src/oscillator/lookup_tables/bl_rect.rs."""
import re
src=open('/repo/src/oscillator/lookup_tables/bl_rect.rs').read()
lits=re.findall(r'^\s+(\S+),\s*$',src,re.M)
assert len(lits)==5075
from decimal import Decimal
D=max(-Decimal(l).as_tuple().exponent for l in lits)
nums=[int(Decimal(l).scaleb(D)) for l in lits]
assert all(Decimal(n).scaleb(-D)==Decimal(l) for n,l in zip(nums,lits))
CH=64
out=["/-! Generated by tools/gen_blrect.py: the 5075 decimal literals of",
"/repo/src/oscillator/lookup_tables/bl_rect.rs:1-5077 (`BANDLIMITED_RECT`), each times `10 ^ blRectDigits`. -/","","namespace Verif.FMath","",
"/-- number of decimal digits the literals are scaled by -/","def blRectDigits : Nat := %d"%D,""]
names=[]
for i in range(0,len(nums),CH):
    nm="blRectChunk%d"%(i//CH); names.append(nm)
    out.append("/-- bl_rect.rs:%d-%d -/"%(i+2,min(i+CH,len(nums))+1))
    body=", ".join(map(str,nums[i:i+CH]))
    import textwrap
    out.append("def %s : List Nat := [\n%s]"%(nm,"\n".join(textwrap.wrap(body,110,initial_indent="  ",subsequent_indent="  "))))
out.append("")
out.append("/-- bl_rect.rs:1-5077, all literals in order -/")
out.append("def blRectDecimals : List Nat := List.flatten [\n%s]"%("\n".join(textwrap.wrap(", ".join(names),110,initial_indent="  ",subsequent_indent="  "))))
out.append("\nend Verif.FMath")
open('/verif/lean/Verif/Model/BlRectTable.lean','w').write("\n".join(out)+"\n")
print(D,max(nums))
