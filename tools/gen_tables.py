#!/usr/bin/env python3
"""Copies the byte-type tables of src/lib/xmltok.rs and the name-character tables of
src/lib/nametab.rs into lean/Verif/Tables.lean.  Usage: gen_tables.py [repo]"""
import re, sys, os
repo = sys.argv[1] if len(sys.argv) > 1 else "/repo"
here = os.path.dirname(os.path.abspath(__file__))
src = open(f"{repo}/src/lib/xmltok.rs").read()
out = ["import Verif.Basic", "", "/-! GENERATED by tools/gen_tables.py - do not edit.",
       "Byte-type tables: src/lib/xmltok.rs:1175-1915 (`impl NormalEncodingTable for ...`).",
       "Name-character tables: src/lib/nametab.rs:33-110. -/", "", "namespace Verif.Tables", "open Verif ByteType", ""]
for m in re.finditer(r"impl NormalEncodingTable for (\w+) \{\s*const types: \[ByteType; 256\] = \[(.*?)\];", src, re.S):
    name, body = m.groups()
    line = src[:m.start()].count("\n")+1
    body = re.sub(r"//.*", "", body); body = re.sub(r"/\*.*?\*/", "", body, flags=re.S)
    ents = re.findall(r"ByteType::(\w+)", body)
    assert len(ents) == 256, (name, len(ents))
    lname = name[0].lower()+name[1:]
    out.append(f"/-- xmltok.rs:{line} `{name}::types` -/")
    out.append(f"def {lname} : List ByteType := [")
    for i in range(0,256,8):
        out.append("  " + ", ".join("."+e for e in ents[i:i+8]) + ("," if i<248 else "]"))
    out.append("")
nt = open(f"{repo}/src/lib/nametab.rs").read()
for nm in ("namingBitmap","nmstrtPages","namePages"):
    m = re.search(r"pub const %s: \[[^\]]*\] = \[(.*?)\];" % nm, nt, re.S)
    line = nt[:m.start()].count("\n")+1
    body = re.sub(r"//.*", "", m.group(1)); body = re.sub(r"/\*.*?\*/","",body,flags=re.S)
    nums = [int(re.sub(r"(_?u\d+|as .*)","",x.strip().replace("_","")),0) for x in body.split(",") if x.strip()]
    assert len(nums) == (320 if nm=="namingBitmap" else 256), (nm,len(nums))
    out.append(f"/-- nametab.rs:{line} `{nm}` -/")
    out.append(f"def {nm} : List Nat := [")
    for i in range(0,len(nums),8):
        out.append("  " + ", ".join("0x%X"%e for e in nums[i:i+8]) + ("," if i<len(nums)-8 else "]"))
    out.append("")
out.append("end Verif.Tables")
open(f"{here}/../lean/Verif/Tables.lean","w").write("\n".join(out)+"\n")
