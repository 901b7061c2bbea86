#!/usr/bin/env python3
"""Regenerate lean/Verif.lean so that it imports every module."""
import os,glob
root=os.path.dirname(os.path.dirname(os.path.abspath(__file__)))+'/lean/'
mods=[]
for d in ['Go','Model','Spec','Proofs','Props']:
    for f in sorted(glob.glob(root+'Verif/'+d+'/*.lean')):
        mods.append('Verif.'+d+'.'+os.path.basename(f)[:-5])
open(root+'Verif.lean','w').write(''.join('import '+m+'\n' for m in mods))
