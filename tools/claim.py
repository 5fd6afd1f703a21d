#!/usr/bin/env python3
"""claim.py ID STATUS NOTE: sets one claim and rewrites MANIFEST.json"""
import json, os, subprocess, sys
root = os.path.dirname(os.path.dirname(os.path.abspath(__file__)))
f = root + '/tools/claims.json'
c = json.load(open(f))
c[sys.argv[1]] = [sys.argv[2], sys.argv[3]]
open(f, 'w').write('{\n' + ',\n'.join(json.dumps(k) + ': ' + json.dumps(c[k]) for k in sorted(c)) + '\n}\n')
