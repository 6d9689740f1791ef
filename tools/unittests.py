"""Writes lean/Verif/Tests/StrokeModeler.lean from the text of stroke_modeler_test.cc.

usage: unittests.py REPO OUT
"""
import re, sys

HEAD = '''import Verif.Examples.Base
/-!
# The unit tests of the code, replayed on the model

stroke_modeler_test.cc call by call, with the values it expects and its tolerances (kTol = 1e-4, kAccelTol = 1e-3,
stroke_modeler_test.cc:35-37). These are tests of the transcription, not proofs about it: they show that the model on
IEEE floats gives the numbers that the code gives. Written by tools/unittests.py from the text of the tests.
-/
namespace Ink.Tests
open Scalar Ex

/-- One statement of a test. The vectors of results are numbered. -/
inductive Check where
  /-- A call with vector `v`, and its expected status: none for not checked, `some none` for OK. -/
  | call (o : List (Result F32 F64) → Op F32 F64) (v : Nat) (status : Option (Option Code))
  | clear (v : Nat)
  /-- The vector holds results near these: position, velocity, acceleration, time, then pressure, tilt, orientation
  (-1 when left out), each as a fraction. -/
  | see (v : Nat) (expected : List (List (Int × Nat)))
  | same (v w : Nat)
  | some (v : Nat)

/-- `x` is a number within `1 / tol` of the fraction `e`. -/
def near {f : Fmt} (tol : Nat) (x : Fl f) (e : Int × Nat) : Bool :=
  !x.isNaN && !x.isInf && (x.key * e.2 - e.1 * 2 ^ f.q).natAbs * tol ≤ 2 ^ f.q * e.2

/-- ResultNear, type_matchers.cc -/
def resultNear (r : Result F32 F64) : List (Int × Nat) → Bool
  | x :: y :: u :: v :: a :: b :: t :: rest =>
    near 10000 r.position.x x && near 10000 r.position.y y && near 10000 r.velocity.x u && near 10000 r.velocity.y v &&
      near 1000 r.acceleration.x a && near 1000 r.acceleration.y b && near 10000 r.time t &&
      match rest with
      | [] => near 10000 r.pressure (-1, 1) && near 10000 r.tilt (-1, 1) && near 10000 r.orientation (-1, 1)
      | [p, t, o] => near 10000 r.pressure p && near 10000 r.tilt t && near 10000 r.orientation o
      | _ => false
  | _ => false

/-- All results are near the expected ones, one by one. -/
def allNear : List (Result F32 F64) → List (List (Int × Nat)) → Bool
  | [], [] => true
  | r :: rs, e :: es => resultNear r e && allNear rs es
  | _, _ => false

/-- The code of a status. -/
def code : Status → Option Code
  | .ok => none
  | .err c _ => Option.some c

/-- The test goes through from modeler `m`, the vectors holding `vs`. -/
def passes (m : StrokeModeler F32 F64) (vs : Nat → List (Result F32 F64)) : List Check → Bool
  | [] => true
  | .clear v :: cs => passes m (fun w => if w = v then [] else vs w) cs
  | .see v es :: cs => allNear (vs v) es && passes m vs cs
  | .same v w :: cs => vs v == vs w && passes m vs cs
  | .some v :: cs => !(vs v).isEmpty && passes m vs cs
  | .call o v st :: cs =>
    match step m (o (vs v)) with
    | .ok (m', r) =>
      (st.all fun s => s == code r.status) &&
        passes m' (match o [] with
          | .update .. | .predict .. => fun w => if w = v then r.results else vs w
          | _ => vs) cs
    | _ => false

/-- kDefaultParams, stroke_modeler_test.cc:38-52, with the default limit of outputs per call. -/
def defaults : StrokeModelParams F32 F64 := { params with sampling := { params.sampling with maxOutputsPerCall := 100000 } }

'''

src=open(sys.argv[1]+'/ink_stroke_modeler/stroke_modeler_test.cc').read()
def f32(x): return x
def strip(s): return re.sub(r'//[^\n]*','',s)
src=strip(src)
def match(s,i):
    op=s[i]; cl={'(':')','{':'}'}[op]; d=0
    for j in range(i,len(s)):
        if s[j]==op: d+=1
        elif s[j]==cl:
            d-=1
            if d==0: return j
    raise Exception
def split(s,sep):
    out=[];d=0;cur=''
    for c in s:
        if c in '({[<' and c!='<': d+=1
        if c in ')}]': d-=1
        if c==sep and d==0: out.append(cur);cur=''
        else: cur+=c
    if cur.strip(): out.append(cur)
    return out
def num(e,env):
    e=e.strip()
    e=e.replace('INT_MAX','2147483647')
    m=re.fullmatch(r'(?:Time|Duration)\s*[\(\{](.*)[\)\}]',e,re.S)
    if m: return num(m.group(1),env)
    if e in env: return env[e]
    e=re.sub(r'(?<![\w.])(\d+\.?\d*|\.\d+)f',r'\1',e)
    for k in sorted(env,key=len,reverse=True):
        if isinstance(env[k],(int,float)): e=re.sub(r'\b%s\b'%k,'(%r)'%env[k],e)
    if re.fullmatch(r'[\d\s.+\-*/()eE]+',e):
        return float(eval(e))
    raise Exception('num '+e)
def fields(s):
    # s: {...}
    s=s.strip(); assert s[0]=='{',s
    inner=s[1:match(s,0)]
    r={}; pos=[]
    for p in split(inner,','):
        p=p.strip()
        m=re.match(r'\.(\w+)\s*=\s*(.*)$',p,re.S)
        if not m:
            m=re.match(r'\.(\w+)\s*(\{.*)$',p,re.S)
        if m: r[m.group(1)]=m.group(2)
        else: pos.append(p)
    return r,pos
def vec(s,env):
    s=s.strip(); s=s[s.index('{')+1:-1]
    return [f32(num(x,env)) for x in split(s,',')]
def inp(s,env):
    s=s.strip()
    if s[0]!='{': return env[s]
    r,_=fields(s)
    g=lambda k:f32(num(r[k],env)) if k in r else -1.0
    return dict(type=re.search(r'k(\w+)',r['event_type']).group(1),pos=vec(r['position'],env) if 'position' in r else [0,0],time=num(r['time'],env) if 'time' in r else 0.0,p=g('pressure'),t=g('tilt'),o=g('orientation'))
def res(s,env):
    r,pos=fields(s)
    if pos:
        names=['position','velocity','acceleration','time','pressure','tilt','orientation']
        r=dict(zip(names,pos))
    v=lambda k:vec(r[k],env) if k in r else [0.0,0.0]
    g=lambda k:num(r[k],env) if k in r else -1.0
    return dict(pos=v('position'),vel=v('velocity'),acc=v('acceleration'),time=num(r['time'],env) if 'time' in r else 0.0,p=g('pressure'),t=g('tilt'),o=g('orientation'))
def expected(s,env):
    s=s.strip()
    if s=='IsEmpty()': return []
    if s=='Not(IsEmpty())': return 'nonempty'
    m=re.match(r'ElementsAre\(',s); i=s.index('(')
    out=[]
    for x in split(s[i+1:match(s,i)],','):
        x=x.strip()
        if x in env: out.append(env[x]); continue
        assert x.startswith('ResultNear('),x
        a=split(x[len('ResultNear('):-1],',')
        out.append(res(a[0],env))
    return out
PD=dict(wobble=dict(is_enabled=True,timeout=.04,speed_floor=f32(1.31),speed_ceiling=f32(1.44)),
 mass=f32(11/32400),drag=72.0,loop=dict(is_enabled=False,lo=-1.0,hi=-1.0,slo=-1.0,shi=-1.0,win=0.0,n=-1),
 rate=180.0,stop=f32(.001),iters=20,maxout=None,
 stylus=dict(max=20,norm=False,min=-1,dur=-1.0),pred='strokeEnd')
tests=[]
import copy
for m in re.finditer(r'TEST\(\s*StrokeModelerTest,\s*(\w+)\s*\)\s*\{',src):
    name=m.group(1); i=m.end()-1; body=src[i+1:match(src,i)]
    env={'kDefaultParams':copy.deepcopy(PD)}
    vecs={}
    ops=[]; checks=[]
    def call(s):
        s=re.sub(r'\s+',' ',s.strip())
        mm=re.match(r'modeler ?\. ?(\w+)\((.*)\)$',s,re.S); assert mm,s
        f,a=mm.group(1),mm.group(2).strip()
        if f=='Reset': ops.append(('reset',copy.deepcopy(env[a])) if a else ('reset0',)); return
        if f in('Save','Restore'): ops.append((f.lower(),)); return
        if f=='Predict': ops.append(('predict',a)); return
        if f=='Update':
            x=split(a,','); ops.append(('update',inp(x[0],env),x[1].strip())); return
        raise Exception(f)
    for st in split(body,';'):
        st=st.strip()
        if not st: continue
        m2=re.match(r'(?:ASSERT|EXPECT)_TRUE\((.*)\)$',st,re.S)
        if m2:
            e=m2.group(1).strip(); assert re.search(r'\.\s*ok\(\)$',e); e=re.sub(r'\.\s*ok\(\)$','',e).strip()
            call(e); checks.append((len(ops)-1,'status','ok')); continue
        m2=re.match(r'EXPECT_EQ\((.*)\)$',st,re.S)
        if m2:
            a=split(m2.group(1),',')
            if 'code()' in a[0]:
                e=re.sub(r'\.\s*code\(\)$','',a[0].strip()).strip(); call(e)
                checks.append((len(ops)-1,'status',re.search(r'k(\w+)',a[1]).group(1)))
            else: checks.append((len(ops)-1,'same',a[0].strip(),a[1].strip()))
            continue
        m2=re.match(r'EXPECT_THAT\((.*)\)$',st,re.S)
        if m2:
            a=split(m2.group(1),',')
            checks.append((len(ops)-1,'vec',a[0].strip(),expected(','.join(a[1:]),env))); continue
        m2=re.match(r'(\w+)\.clear\(\)$',st)
        if m2: ops.append(('clear',m2.group(1))); continue
        if re.match(r'modeler\.',st): call(st); continue
        m2=re.match(r'(?:const )?(?:Time|Duration) (\w+)\{(.*)\}$',st,re.S)
        if m2: env[m2.group(1)]=num(m2.group(2),env); continue
        m2=re.match(r'time \+= (\w+)$',st)
        if m2: env['time']+=env[m2.group(1)]; continue
        m2=re.match(r'StrokeModelParams (\w+) = kDefaultParams$',st)
        if m2: env[m2.group(1)]=copy.deepcopy(PD); continue
        m2=re.match(r'Input (\w+)\s*=?\s*(\{.*)$',st,re.S)
        if m2: env[m2.group(1)]=inp(m2.group(2),env); continue
        m2=re.match(r'auto first_result_matcher =\s*ResultNear\((.*)\)$',st,re.S)
        if m2: env['first_result_matcher']=res(split(m2.group(1),',')[0],env); continue
        m2=re.match(r'(\w*params)\.(.*?)\s*=\s*(.*)$',st,re.S)
        if m2:
            p=env[m2.group(1)]; k=m2.group(2).strip(); v=m2.group(3).strip()
            if k=='stylus_state_modeler_params.use_stroke_normal_projection': p['stylus']['norm']=True
            elif k=='stylus_state_modeler_params.min_input_samples': p['stylus']['min']=int(v)
            elif k=='stylus_state_modeler_params.min_sample_duration': p['stylus']['dur']=num(v,env)
            elif k=='wobble_smoother_params.is_enabled': p['wobble']['is_enabled']=False
            elif k=='prediction_params': p['pred']='disabled'
            elif k=='sampling_params.min_output_rate': p['rate']=float(v)
            elif k.startswith('position_modeler_params.loop'):
                r,_=fields(v[v.index('{'):])
                p['loop']=dict(is_enabled=True,lo=num(r['speed_lower_bound'],env),hi=num(r['speed_upper_bound'],env),slo=num(r['interpolation_strength_at_speed_lower_bound'],env),shi=num(r['interpolation_strength_at_speed_upper_bound'],env),win=num(r['min_speed_sampling_window'],env),n=int(r['min_discrete_speed_samples']))
            else: raise Exception(k)
            continue
        if re.match(r'StrokeModeler modeler$|std::vector<Result> \w+$',st): continue
        raise Exception('stmt '+st[:200])
    tests.append(dict(name=name,ops=ops,checks=checks))

from fractions import Fraction
def dec(x):
    fr=Fraction(repr(float(x))); return fr.numerator,fr.denominator
def D(x):
    n,d=dec(x)
    return str(n) if d==1 and n>=0 else f'(-{-n})' if d==1 else f'(d {n} {d})' if n>=0 else f'(d (-{-n}) {d})'
def F(x): return D(x).replace('(d ','(fl ')
def Q(x):
    n,d=dec(x); return f'({n}, {d})'
def tr(p):
    mods=[]
    b=lambda x:'true' if x else 'false'
    w=p['wobble'];l=p['loop'];s=p['stylus']
    if not w['is_enabled']: mods.append('wobble := { params.wobble with isEnabled := false }')
    if l['is_enabled']: mods.append(f"position := {{ params.position with loop := ⟨true, {F(l['lo'])}, {F(l['hi'])}, {F(l['slo'])}, {F(l['shi'])}, {D(l['win'])}, {l['n']}⟩ }}")
    if p['rate']!=180: mods.append(f"sampling := {{ params.sampling with minOutputRate := {D(p['rate'])}, maxOutputsPerCall := 100000 }}")
    else: mods.append('sampling := { params.sampling with maxOutputsPerCall := 100000 }')
    if s['norm'] or s['min']!=-1: mods.append(f"stylus := ⟨{s['max']}, {b(s['norm'])}, {s['min']}, {D(s['dur'])}⟩")
    if p['pred']!='strokeEnd': mods.append(f"prediction := .{p['pred']}")
    if mods==['sampling := { params.sampling with maxOutputsPerCall := 100000 }']: return 'defaults'
    return '{ params with '+', '.join(mods)+' }'
CODE={'ok':'.ok','InvalidArgument':'.err .invalidArgument','FailedPrecondition':'.err .failedPrecondition','Internal':'.err .internal'}
out=[]
for t in tests:
    names=['results']
    def vi(n):
        if n not in names: names.append(n)
        return names.index(n)
    L=[]
    for k,o in enumerate(t['ops']):
        cs=[c for c in t['checks'] if c[0]==k]
        st='none'
        for c in cs:
            if c[1]=='status': st='(some none)' if c[2]=='ok' else f"(some (some .{c[2][0].lower()+c[2][1:]}))"
        if o[0]=='clear': L.append(f'.clear {vi(o[1])}')
        elif o[0]=='reset': L.append(f'.call (fun _ => .resetParams {tr(o[1])}) 0 {st}')
        elif o[0]=='reset0': L.append(f'.call (fun _ => .reset) 0 {st}')
        elif o[0] in('save','restore'): L.append(f'.call (fun _ => .{o[0]}) 0 {st}')
        elif o[0]=='predict': L.append(f'.call .predict {vi(o[1])} {st}')
        else:
            i=o[1]; L.append(f".call (.update ⟨.{i['type'].lower()}, ⟨{F(i['pos'][0])}, {F(i['pos'][1])}⟩, {D(i['time'])}, {F(i['p'])}, {F(i['t'])}, {F(i['o'])}⟩) {vi(o[2])} {st}")
        for c in cs:
            if c[1]=='same': L.append(f'.same {vi(c[2])} {vi(c[3])}')
            if c[1]=='vec':
                if c[3]=='nonempty': L.append(f'.some {vi(c[2])}')
                else:
                    rs=[]
                    for y in c[3]:
                        z=y['pos']+y['vel']+y['acc']+[y['time'],y['p'],y['t'],y['o']]
                        if all(a==-1 for a in z[7:]): z=z[:7]
                        rs.append('['+', '.join(Q(a) for a in z)+']')
                    L.append(f'.see {vi(c[2])} ['+',\n     '.join(rs)+']')
    out.append(f'/-- {t["name"]} -/\ndef {t["name"][0].lower()+t["name"][1:]} : List Check :=\n  ['+',\n   '.join(L)+']\n')
    out.append(f'#guard passes .default (fun _ => []) {t["name"][0].lower()+t["name"][1:]}\n')
open(sys.argv[2],'w').write(HEAD+'\n'.join(out)+'\nend Ink.Tests\n')
