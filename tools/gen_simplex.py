import itertools,sys
# variables
def piece(lo,hi,c,rs):
    rs=list(rs)
    s=['1']*len(rs)
    while len(rs)<3: rs.append('-1'); s.append('0')
    return f"⟨{lo}, {hi}, {c}, {rs[0]}, {s[1]}, {rs[1]}, {s[2]}, {rs[2]}⟩"
def lists(w,k):
    n=len(w)-1
    if n==1:
        a,b=w
        return [[piece(a,b, f"1 / ({b} - {a}) / ({a} - {b})" if k==0 else f"1 / ({b} - {a}) / ({b} - {a})",[b if k==0 else a])]]
    if n==2:
        a,b,c=w
        G=f"1 / ({b} - {a}) / ({c} - {a})"; H=f"-1 / ({c} - {b}) / ({c} - {a})"
        l1=[piece(a,b,f"{G} / ({a} - {y})",[a,y]) for y in (b,c)] if k==0 else [piece(a,b,f"{G} / ({w[k]} - {a})",[a,a])]
        l2=[piece(b,c,f"{H} / ({c} - {y})",[c,y]) for y in (a,b)] if k==2 else [piece(b,c,f"{H} / ({w[k]} - {c})",[c,c])]
        return [l1,l2]
    a,b,c,d=w
    G=f"1 / ({b} - {a}) / ({c} - {a}) / ({d} - {a})"; H=f"1 / ({d} - {a}) / ({d} - {b}) / ({d} - {c})"
    l1=[piece(a,b,f"{G} / ({a} - {y})",[a,a,y]) for y in (b,c,d)] if k==0 else [piece(a,b,f"{G} / ({w[k]} - {a})",[a,a,a])]
    l3=[piece(c,d,f"{H} / ({d} - {y})",[d,d,y]) for y in (a,b,c)] if k==3 else [piece(c,d,f"{H} / ({w[k]} - {d})",[d,d,d])]
    r,dn={0:(d,f"({a} - {d})"),1:(c,f"({b} - {c})"),2:(b,f"({c} - {b})"),3:(a,f"({d} - {a})")}[k]
    al=f"1 / ({d} - {a}) / (({c} - {b}) * ({b} - {d})) / {dn}"
    be=f"1 / ({d} - {a}) / (({c} - {a}) * ({b} - {c})) / {dn}"
    ex={0:([c,a,c],f"1 / (({a} - {c}) * ({c} - {a}) * ({b} - {c}) * ({d} - {a}))"),
        1:([d,d,b],f"1 / (({b} - {d}) * ({b} - {d}) * ({c} - {b}) * ({d} - {a}))"),
        2:([a,a,c],f"1 / (({c} - {a}) * ({c} - {a}) * ({b} - {c}) * ({d} - {a}))"),
        3:([b,d,b],f"1 / (({d} - {b}) * ({b} - {d}) * ({c} - {b}) * ({d} - {a}))")}[k]
    l2=[piece(b,c,al,[r,b,d]),piece(b,c,be,[r,a,c]),piece(b,c,ex[1],ex[0])]
    return [l1,l2,l3]
def vec(l): return "!["+", ".join(l)+"]"
ORD="abcd"
def neproof(x,y): return f"{x}{y}".join(["h",""]) if x<y else f"h{y}{x}.symm"
class Ctx:
    def __init__(s): s.facts=[]; s.seen=set()
    def add(s,stmt_key,term):
        if stmt_key in s.seen: return
        s.seen.add(stmt_key); s.facts.append(term)
def wave(ctx,vals):
    """sorted vals"""
    n=len(vals)
    key=('w',tuple(vals))
    if key in ctx.seen: return
    if n==1: return
    if vals[0]==vals[-1]:
        nm={2:'wave_pair_flat',3:'wave_triple_flat'}[n]
        ctx.add(key,f"{nm} (t := t) {vals[0]}"); return
    nm={2:'wave_pair',3:'wave_triple',4:'wave_quad'}[n]
    extra={2:'',3:f" (y := {vals[1]})" if n>=3 else '',4:f" (y := {vals[1]}) (z := {vals[2]})" if n==4 else ''}[n]
    ctx.add(key,f"{nm} ht{extra} {neproof(vals[0],vals[-1])}")
    if n>2: ctx.pending+=[vals[1:],vals[:-1]]
def waveany(ctx,vals):
    sv=sorted(vals)
    if vals!=sv:
        # find sigma : vals = sv ∘ σ, any consistent bijection
        used=[];
        for v in vals:
            for i,x in enumerate(sv):
                if x==v and i not in used: used.append(i); break
        ctx.add(('p',tuple(vals)),f"wave_at (t := t) {vec(sv)} {vec(vals)} (perm {vec([str(i) for i in used])} (by decide)) (by funext i; fin_cases i <;> rfl)")
    ctx.pending.append(sv)
def pull(ctx,x,others):
    n=len(others)
    if all(o==x for o in others):
        if n==0: return
        nm={1:'pull_pair_flat',2:'pull_triple_flat'}[n]
        ctx.add(('pf',n,x),f"{nm} (t := t) {x}"); return
    j=next(i for i,o in enumerate(others) if o!=x)
    if n==2 and j==1:
        ctx.add(('p132',x,tuple(others)),f"pull_132 (t := t) {x} {others[1]} {others[0]}")
        others=[others[1],others[0]]
    elif n==3 and j!=0:
        raise Exception
    y=others[0]; rest=others[1:]
    nm={1:'pull_pair',2:'pull_triple',3:'pull_quad'}[n]
    extra={1:'',2:f" (z := {rest[0]})" if n>=2 else '',3:f" (z := {rest[0]}) (u := {rest[1]})" if n==3 else ''}[n]
    ctx.add(('pl',x,tuple(others)),f"{nm} ht{extra} {neproof(x,y)}")
    pull(ctx,x,rest)
    waveany(ctx,[x]+others)
def lemma(w,k):
    n=len(w)-1
    vs=sorted(set(w))
    name=f"case{n}_{''.join(w)}_{k}"
    ctx=Ctx(); ctx.pending=[]
    x=w[k]; idx=[i for i in range(n+1) if i!=k]
    j=next(i for i in idx if w[i]!=x)
    idx=[j]+[i for i in idx if i!=j]
    others=[w[i] for i in idx]
    sig=[k]+idx
    head=f"  have h0 : pull t {vec(w)} {k} = pull t {vec([x]+others)} 0 :=\n    pull_at (t := t) {vec(w)} {vec([x]+others)} (perm {vec([str(i) for i in sig])} (by decide)) (by funext i; fin_cases i <;> rfl)\n"
    pull(ctx,x,others)
    for n_ in (4,3,2):
        for sv in list(ctx.pending):
            if len(sv)==n_: wave(ctx,sv)
    ls=lists(w,k)
    # non-empty pieces only
    bounds=[(w[i],w[i+1]) for i in range(n)]
    hyps=" ".join(f"(h{p}{q} : {p} ≠ {q})" for p,q in itertools.combinations(vs,2))
    rhs=[]
    for (lo,hi),l in zip(bounds,ls):
        if lo!=hi: rhs.append("bump t ["+", ".join(l)+"]")
    fact=[1,1,2,6][n]
    out=f"theorem {name} {{t : ℝ}} (ht : t ≠ 0) {{{' '.join(vs)} : ℝ}} {hyps} :\n    ({fact} : ℂ) * pull t {vec(w)} {k} = {' + '.join(rhs)} := by\n"
    out+=head
    out+="  rw [h0, "+",\n    ".join(ctx.facts)+"]\n"
    out+="  have hT : (t * I : ℂ) ≠ 0 := mul_ne_zero (by exact_mod_cast ht) I_ne_zero\n"
    for p,q in itertools.combinations(vs,2):
        out+=f"  have n{p}{q} : ((({p} : ℝ) : ℂ) - ({q} : ℝ)) ≠ 0 := by rw [sub_ne_zero]; exact_mod_cast h{p}{q}\n"
        out+=f"  have n{q}{p} : ((({q} : ℝ) : ℂ) - ({p} : ℝ)) ≠ 0 := by rw [sub_ne_zero]; exact_mod_cast h{p}{q}.symm\n"
    out+="  simp only [bump, List.map_cons, List.map_nil, List.sum_cons, List.sum_nil, Piece.prim]\n"
    out+="  push_cast\n"
    out+="  generalize (t * I : ℂ) = T at *\n"
    for v in vs: out+=f"  generalize cexp (T * {v}) = e{v}\n"
    for v in vs: out+=f"  generalize (({v} : ℝ) : ℂ) = z{v} at *\n"
    out+="  field_simp\n  ring\n\n"
    return out
HEAD='''/-! # Closed forms of the interpolation density: {what} (generated by /verif/tools/gen_simplex.py) -/

noncomputable section

namespace Interphon.Spec
open MeasureTheory Set Complex

set_option maxHeartbeats 4000000
set_option linter.unusedVariables false

'''
def main(dim,fn,pats,imp,what):
    s=f"import {imp}\n"+("import Mathlib.Tactic.FinCases\nimport Mathlib.Tactic.FieldSimp\n")+"\n"+HEAD.replace('{what}',what)
    for w in pats:
        for k in range(dim+1): s+=lemma(list(w),k)
    s+="end Interphon.Spec\n"
    open(fn,'w').write(s)

def assembly(fn):
    s="import Verif.Lemmas.SimplexCases1\nimport Verif.Lemmas.SimplexCases2\nimport Verif.Lemmas.SimplexCases3\nimport Verif.Lemmas.SimplexCases4\nimport Verif.Lemmas.SimplexCases5\n\n"+HEAD.replace('{what}','all cases')
    pats={1:['ab'],2:['abc','aac','abb'],3:['abcd','aacd','abbd','abcc','aacc','aaad','abbb']}
    for n in (1,2,3):
        vs="abcd"[:n+1]
        for k in range(n+1):
            ls=lists(list(vs),k)
            nm=f"cuts{n}_{k}"
            s+=f"/-- The pieces of the density weighted by corner {k} ({n}-D). -/\ndef {nm} ({' '.join(vs)} : ℝ) : List Piece :=\n  "+" ++ (".join("["+", ".join(l)+"]" for l in ls)+")"*(len(ls)-1)+"\n\n"
            hy=" ".join(f"({vs[i]}{vs[i+1]} : {vs[i]} ≤ {vs[i+1]})" for i in range(n))
            fact=[1,1,2,6][n]
            s+=f"theorem all{n}_{k} {{t : ℝ}} (ht : t ≠ 0) {{{' '.join(vs)} : ℝ}} {hy} (hlt : {vs[0]} < {vs[-1]}) :\n    ({fact} : ℂ) * pull t {vec(list(vs))} {k} = bump t ({nm} {' '.join(vs)}) := by\n"
            s+=f"  unfold {nm}\n"
            if n>1: s+="  simp only [bump_append]\n"
            def leaf(pat,ind):
                ps=sorted(set(pat))
                o=""
                em=[i for i in range(n) if pat[i]==pat[i+1]]
                nes=[]
                for x,y in itertools.combinations(ps,2): nes.append(f"(by intro hh; linarith)")
                for i in em:
                    o+=f"{ind}have q{i} := bump_empty t ["+", ".join(lists(list(pat),k)[i])+"] (by simp)\n"
                if em: o+=f"{ind}rw ["+", ".join(f"q{i}" for i in em)+"]\n"
                call=f"case{n}_{pat}_{k} ht "+" ".join(nes)
                o+=f"{ind}have r := {call.rstrip()}\n" if False else ""
                args=" ".join(f"({z} := {z})" for z in ps)
                o+=f"{ind}have r := case{n}_{pat}_{k} ht {args} "+" ".join(nes)+"\n"
                o+=f"{ind}linear_combination r\n"
                return o
            if n==1:
                s+=leaf('ab',"  ")
            else:
                def rec(i,pat,ind):
                    # decide relation between pat[i], vs[i+1]
                    if i==n:
                        if pat[0]==pat[-1]: return f"{ind}exact absurd hlt (lt_irrefl _)\n"
                        return leaf(pat,ind)
                    x,y=pat[i],vs[i+1]
                    # equal-first
                    o=f"{ind}rcases {vs[i]}{vs[i+1]}.eq_or_lt with e{i} | e{i}\n"
                    o+=f"{ind}· subst e{i}\n"+rec(i+1,pat+x,ind+"  ")
                    o+=f"{ind}·\n"+rec(i+1,pat+y,ind+"  ")
                    return o
                s+=rec(0,'a',"  ")
            s+="\n"
    s+="end Interphon.Spec\n"
    open(fn,'w').write(s)
if __name__=='__main__':
    d=sys.argv[1]
    main(1,d+'/SimplexCases1.lean',['ab'],'Verif.Lemmas.SimplexDensity','segments')
    main(2,d+'/SimplexCases2.lean',['abc','aac','abb'],'Verif.Lemmas.SimplexDensity','triangles')
    main(3,d+'/SimplexCases3.lean',['abcd'],'Verif.Lemmas.SimplexDensity','tetrahedra with four different corner values')
    main(3,d+'/SimplexCases4.lean',['aacd','abbd','abcc'],'Verif.Lemmas.SimplexDensity','tetrahedra with two equal corner values')
    main(3,d+'/SimplexCases5.lean',['aacc','aaad','abbb'],'Verif.Lemmas.SimplexDensity','tetrahedra with more equal corner values')
    assembly(d+'/SimplexAll.lean')
