#!/usr/bin/env python3
# Regenerates MANIFEST.json from the table below; run from /verif.
import json
T=[]
def c(p,status,theorems,note=""): T.append({"property":p,"status":status,"theorems":theorems,"note":note})
exec(open('manifest_table.py').read())
json.dump({"claims":T},open('MANIFEST.json','w'),indent=1)
