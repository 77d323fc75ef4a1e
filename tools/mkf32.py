#!/usr/bin/env python3
"""Writes Verif/Fp32/*.lean: the binary32 copy of Verif/Fp/*.lean (other constants, same proofs)."""
import re,os
L=os.path.join(os.path.dirname(os.path.abspath(__file__)),"..","lean","Verif")
os.makedirs(L+"/Fp32",exist_ok=True)
for f in ["Model","Round","Lemmas","Props","Mono","Val","Rel"]:
    s=open(f"{L}/Fp/{f}.lean").read()
    if f=="Model":
        i=s.index("-- the model computes"); s=s[:i]+'''-- the model computes the well-known results
example : lit 1 10 = mk false 0x3DCCCCCD := by decide +kernel
example : lit 1 3 = mk false 0x3EAAAAAB := by decide +kernel
example : ofInt 16777217 = ofInt 16777216 := by decide +kernel
example : lit (10 ^ 38) 1 * lit 10 1 = mk false infBits := by decide +kernel
example : lit 1 1 / lit 255 1 * lit 255 1 = lit 1 1 := by decide +kernel

end Verif.Fp32
'''
        s=re.sub(r"/-\nThe type `double`.*?\n-/", '''/-
The type `float` of the code: IEEE 754 binary32, rounding to nearest, ties to even.  Generated
by tools/mkf32.py from Verif/Fp/Model.lean, which explains the representation; the numbers 53, 52,
1074, 2045 and 0x7FF0000000000000 become 24, 23, 149, 253 and 0x7F800000.  No excess precision
(FLT_EVAL_METHOD 0, the usual setting on 64-bit systems).
-/''',s,count=1,flags=re.S)
    s=s.replace("Verif.Fp","Verif.Fp32").replace("F64","F32").replace("0x7FF0000000000000","0x7F800000")
    s=s.replace("Verif.Fp3232","Verif.Fp32")
    for a,b in [("53","24"),("52","23"),("1074","149"),("2045","253"),("1024","128"),("971","104"),("1022","126"),("1023","127"),("0x7FF","0xFF"),("63 remaining","31 remaining")]:
        s=re.sub(r"(?<![0-9A-Za-zx])"+a+r"(?![0-9A-Za-z])",b,s)
    s=s.replace("Fp.one","Fp32.one").replace("double","float").replace("toInt64","toInt64")
    open(f"{L}/Fp32/{f}.lean","w").write(s)
