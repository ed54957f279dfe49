#!/usr/bin/env python3
"""Compare the texts in lean/Verif/Gen/LibText.lean with the files they are taken from.

Each definition cites `file:first-last`; its lines must be those lines of the file.
usage: check_texts.py [repo]
"""
import json
import re
import sys

repo = sys.argv[1] if len(sys.argv) > 1 else "/repo"
src = open("lean/Verif/Gen/LibText.lean").read()
bad = 0
found = 0
for m in re.finditer(r"/-- (\S+):(\d+)-(\d+) -/\ndef (\w+) : Str := linesText \[\n(.*?)\]\n\n", src, re.S):
    path, first, last, name, body = m.groups()
    have = [json.loads(l.strip().rstrip(",")) for l in body.split("\n")]
    want = open(f"{repo}/{path}").read().split("\n")[int(first) - 1 : int(last)]
    found += 1
    if have != want:
        bad += 1
        print("differs:", name, path)
print(f"{found} texts, {bad} differ")
sys.exit(1 if bad else 0)
