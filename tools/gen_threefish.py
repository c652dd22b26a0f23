#!/usr/bin/env python3
"""Translate the unrolled bodies of crypter/crypter{256,512,1024}.go, statement by statement, into Lean `Raw` lists."""
import re
OUT='/verif/lean/Verif/Crypter/'
def opt(x): return 'none' if x is None else f'(some {x})'
def rhs(s):
    b=k=t=None; c=0
    for x in s.split('+'):
        x=x.strip()
        if x[0]=='b': assert b is None and k is None and t is None and c==0; b=int(x[1:])
        elif x[0]=='k': assert k is None and t is None and c==0; k=int(x[1:])
        elif x[0]=='t': assert t is None and c==0; t=int(x[1:])
        else: assert c==0; c=int(x)
    return f'{opt(b)} {opt(k)} {opt(t)} {c}'
def tr(l):
    m=re.fullmatch(r'b(\d+) := input\[(\d+)\]',l)
    if m: return f'.loadB {m[1]} {m[2]}'
    m=re.fullmatch(r'k(\d+) := tf\.expandedKey\[(\d+)\]',l)
    if m: return f'.loadK {m[1]} {m[2]}'
    m=re.fullmatch(r't(\d+) := tf\.expandedTweak\[(\d+)\]',l)
    if m: return f'.loadT {m[1]} {m[2]}'
    m=re.fullmatch(r'b(\d+) \+= (.*)',l)
    if m: return f'.add {m[1]} {rhs(m[2])}'
    m=re.fullmatch(r'b(\d+) -= (.*)',l)
    if m: return f'.sub {m[1]} {rhs(m[2])}'
    m=re.fullmatch(r'output\[(\d+)\] = b(\d+)(?: \+ (.*))?',l)
    if m:
        r=rhs(m[3]) if m[3] else 'none none none 0'
        assert r.startswith('none ')
        return f'.out {m[1]} {m[2]} {r[5:]}'
    m=re.fullmatch(r'b(\d+) = \(\(b(\d+) << (\d+)\) \| \(b(\d+) >> \((\d+) - (\d+)\)\)\) \^ b(\d+)',l)
    if m: return '.rolXor '+' '.join(m.groups())
    m=re.fullmatch(r'tmp = b(\d+) \^ b(\d+)',l)
    if m: return '.tmpXor '+' '.join(m.groups())
    m=re.fullmatch(r'b(\d+) = \(tmp >> (\d+)\) \| \(tmp << \((\d+) - (\d+)\)\)',l)
    if m: return '.rorTmp '+' '.join(m.groups())
    if l=='var tmp uint64': return None
    raise Exception(l)
for n in (256,512,1024):
    lines=open(f'/repo/crypter/crypter{n}.go').read().split('\n')
    o=[f'import Verif.Crypter.Machine',f'/-\nGenerated by tools/gen_threefish.py from /repo/crypter/crypter{n}.go, one `Raw` per Go statement, in order.\n`var tmp uint64` is the zero-initialised `tmp` of `RawState`.\n-/','namespace Verif.Crypter','']
    for fn in ('encrypt','decrypt'):
        i=next(j for j,l in enumerate(lines) if f') {fn}(input' in l)
        j=i+1; st=[]
        while lines[j]!='}':
            l=lines[j].strip()
            if l:
                x=tr(l)
                if x: st.append((j+1,x))
            j+=1
        chunks=[st[a:a+100] for a in range(0,len(st),100)]
        names=[]
        for c,ch in enumerate(chunks):
            nm=f'{fn}{n}_{c}'; names.append(nm)
            o.append(f'/-- crypter{n}.go:{ch[0][0]}-{ch[-1][0]} -/')
            o.append(f'def {nm} : List Raw := [')
            o.append(',\n'.join('  '+', '.join(x for _,x in ch[a:a+5]) for a in range(0,len(ch),5))+']')
            o.append('')
        o.append(f'/-- The body of `threefish{n}.{fn}`, crypter{n}.go:{i+1}-{j+1}. -/')
        o.append(f'def {fn}{n} : List Raw := '+' ++ '.join(names))
        o.append('')
        print(n,fn,len(st))
    o.append('end Verif.Crypter')
    open(OUT+f'Code{n}.lean','w').write('\n'.join(o)+'\n')
