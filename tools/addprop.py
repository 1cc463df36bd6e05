#!/usr/bin/env python3
"""Insert the p(...) calls read from standard input before #@@END of gen_properties.py."""
import sys
f='/verif/tools/gen_properties.py'
s=open(f).read()
open(f,'w').write(s.replace("#@@END", sys.stdin.read()+"#@@END",1))
