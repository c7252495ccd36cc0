#!/usr/bin/env python3
"""Generates lean/Verif/Model/AtomicWeightTable.lean from the literal tables in /repo (read as text)."""
import ast, re
from fractions import Fraction
src=open('/repo/InterPhon/util/atomic_weight.py').read()
lines=src.split('\n')
t=ast.parse(src)
vals={}
for n in t.body:
    if isinstance(n,ast.Assign):
        v=n.value
        if isinstance(v,ast.Call): v=v.args[0]
        if n.targets[0].id=='Atomic_Weight':
            vals['Atomic_Weight']=[ast.get_source_segment(src,e) for e in v.elts]
        else: vals[n.targets[0].id]=ast.literal_eval(v)
out='''import Verif.Py
/-! Generated by `tools/gen_weights.py` from the literal tables of `InterPhon/util/atomic_weight.py`. -/
namespace Interphon.AtomicWeight
open Py

/-- `periodic_table`, `util/atomic_weight.py:24-144`: rows (short name, full name, number as string);
row 0 is the header row. -/
def periodicTable : List (List String) := [
'''
out+=',\n'.join('  ['+', '.join('"%s"'%x for x in r)+']' for r in vals['periodic_table'])+']\n\n'
out+='''/-- `Atomic_Weight`, `util/atomic_weight.py:149-268`: entry 0 is `None`. -/
def atomicWeights : List (Option ℚ) := [
'''
def q(s):
    if s=='None': return 'none'
    f=Fraction(s)
    if '.' in s:
        d=len(s.split('.')[1]); return 'some (%d / %d)'%(int(s.replace('.','')),10**d)
    return 'some %s'%s
out+=',\n'.join('  '+q(s) for s in vals['Atomic_Weight'])+']\n\nend Interphon.AtomicWeight\n'
open('/verif/lean/Verif/Model/AtomicWeightTable.lean','w').write(out)
