#!/usr/bin/env python3
"""Compare the model's text with /repo where this can be done mechanically (a test, not a proof).

* every `make_header!` of headers.rs with the `make_header` of Headers.lean: name, size, fields, default data;
* enums and constants of types.rs with Types.lean;
* which parser functions each function of slow.rs, fast.rs calls, and how often, with Slow, Fast, Stack, Cost;
* the parameters of every builder and header constructor, in order, with Utils.lean, Packet.lean;
* every citation `/repo/file:a-b` in the model: the lines exist, and if they stand before a definition named like a
  function of that file, they contain the head of that function.
"""
import re, sys, glob, os
R, V = '/repo/', os.path.join(os.path.dirname(os.path.abspath(__file__)), '../lean/Verif/')
rd = lambda p: open(p).read()
bad, good = [], 0

def same(what, a, b):
    global good
    if a == b: good += 1
    else: bad.append('%s\n  source %s\n  model  %s' % (what, a, b))

nums = lambda s: [int(x, 0) for x in re.findall(r'0x[0-9a-fA-F]+|\d+', s)]
fields = lambda s: [(n, int(a), int(b)) for n, a, b in re.findall(r'(\w+)\s*:\s*(\d+)\s*-\s*(\d+)', s)]

# headers
hs = rd(R + 'src/headers.rs')
src = {n: (int(k), fields(f), nums(d)) for n, k, f, d in
       re.findall(r'make_header!\(\s*(\w+)\s+(\d+)\s*\((.*?)\)\s*vec!\[(.*?)\]\s*\);', hs[hs.rindex('macro_rules!'):], re.S)}
mod = {n: (int(k), fields(f), nums(d)) for n, k, f, d in
       re.findall(r'make_header (\w+) (\d+)\n\((.*?)\)\s*\[(.*?)\]', rd(V + 'Headers.lean') + rd(V + 'RepoTests.lean'), re.S)}
for n in src: same('header ' + n, src[n], mod.get(n))

# types
ts, tm = rd(R + 'src/types.rs'), rd(V + 'Types.lean')
for n, body in re.findall(r'pub enum (\w+) \{(.*?)\}', ts, re.S):
    a = [(x, int(v, 0)) for x, v in re.findall(r'(\w+) = (\w+)', body)]
    m = re.search(r'def %s\.toU(?:8|16) .*?\n((?:  \| .*\n)+)' % n, tm)
    same('enum ' + n, a, [(x, int(v, 0)) for x, v in re.findall(r'\.(\w+) => (\w+)', m.group(1))])
    order = re.findall(r'x if x == %s::(\w+) as u(?:8|16) => Ok\(%s::(\w+)\)' % (n, n), ts)
    m = re.search(r'def %s\.try_from.*?\n\n' % n, tm + '\n\n', re.S)
    same('try_from ' + n, order, re.findall(r'%s\.(\w+)\.toU(?:8|16) then some \.(\w+)' % n, m.group(0)))
for n, v in re.findall(r'pub const (\w+): \w+ = (\d+);', ts):
    same('const ' + n, int(v), int(re.search(r'def %s : \w+ := (\d+)' % n, tm).group(1)))

# functions of a Rust file: name -> (line of its head, parameters, body)
def functions(text):
    out = {}
    for m in re.finditer(r'^( *)(?:pub(?:\(crate\))? )?(?:const )?fn (\w+)(?:<[^>]*>)?\(', text, re.M):
        end = re.compile(r'^' + m.group(1) + r'\}', re.M).search(text, m.end())
        body = text[m.end():end.end() if end else None]
        depth, i = 1, 0
        while depth and i < len(body):
            depth += {'(': 1, ')': -1}.get(body[i], 0); i += 1
        ps = [p for p in re.findall(r'(\w+)\s*:\s*[^,]+', body[:i - 1])]
        out.setdefault(m.group(2), []).append((text.count('\n', 0, m.start()) + 1, ps, body[i:]))
    return out

def lean_defs(text):
    parts = re.split(r'(?m)^(?:@\[.*?\]\s*)?(?:private |partial )?def (\S+)', text)
    return {parts[i].split('.')[-1]: parts[i + 1] for i in range(1, len(parts), 2)}

strip = lambda s: re.sub(r'/-.*?-/', '', re.sub(r'--.*', '', s), flags=re.S)
calls = lambda s, me: sorted(c for c in re.findall(r'\b(parse_\w+)\b', s) )

# which parsers each parser calls
for f, models in (('slow', ['Slow', 'Stack', 'Cost']), ('fast', ['Fast', 'Stack', 'Cost'])):
    fns = functions(rd(R + 'src/parser/%s.rs' % f))
    for m in models:
        text = rd(V + m + '.lean')
        if m in ('Stack', 'Cost'):
            ns = re.search(r'(?s)namespace [\w.]*%s\n.*?(?=\nend [\w.]*%s)' % (f.capitalize(), f.capitalize()), text)
            if not ns: continue
            text = ns.group(0)
        defs = {k: strip(v) for k, v in lean_defs(text).items()}
        for n, [(_, _, body)] in fns.items():
            if not n.startswith('parse_'): continue
            if n not in defs: bad.append('%s: no %s' % (m, n)); continue
            same('%s.%s calls' % (m, n), calls(re.sub(r'//.*', '', body), n), calls(defs[n].split(':=', 1)[-1] if ':=' in defs[n] else defs[n], n))

# parameters of builders and constructors
def lean_params(sig):
    return [w for g in re.findall(r'\(([^():]+) :', sig) for w in g.split()]
drop = {'chk', 'p6'}
for rs, lean in (('src/utils.rs', 'Utils.lean'), ('src/packet.rs', 'Packet.lean')):
    fns, defs = functions(rd(R + rs)), lean_defs(rd(V + lean))
    for n, l in fns.items():
        if len(l) != 1 or n not in defs: continue
        if rs.endswith('packet.rs') and not re.search(r'fn %s[^{]*-> (Ether|Vlan|IPv[46]|UDP|ICMP|TCP|Vxlan|GRE\w*|ARP|Dot3|LLC|SNAP|MPLS|ERSPAN\w*|STP) \{' % n, rd(R + rs)): continue
        if rs.endswith('utils.rs') and not n.startswith('create_'): continue
        sig = defs[n].split(':=')[0]
        a, b = [p for p in l[0][1]], [p for p in lean_params(sig) if p not in drop]
        same('%s parameters (number)' % n, len(a), len(b))
        if a != b: print('note: %s names its parameters %s, the model %s' % (n, [x for x, y in zip(a, b) if x != y], [y for x, y in zip(a, b) if x != y]))

# citations
cache = {}
for p in sorted(glob.glob(V + '*.lean')):
    text = rd(p)
    for m in re.finditer(r'/repo/([\w/.]+\.\w+):(\d+)(?:-(\d+))?', text):
        f, a, b = m.group(1), int(m.group(2)), int(m.group(3) or m.group(2))
        if f not in cache: cache[f] = rd(R + f) if os.path.exists(R + f) else None
        if cache[f] is None: bad.append('%s cites %s, which does not exist' % (os.path.basename(p), f)); continue
        n = cache[f].count('\n') + 1
        if not (1 <= a <= b <= n): bad.append('%s cites %s:%d-%d of %d lines' % (os.path.basename(p), f, a, b, n)); continue
        good += 1
    for m in re.finditer(r'/--((?:(?!-/).)*)-/\s*(?:@\[[^\]]*\]\s*)?(?:mutual\s*)?(?:private )?def (\S+)', text, re.S):
        name = m.group(2).split('.')[-1]
        cites = [(f, int(a), int(b or a)) for f, a, b in re.findall(r'/repo/([\w/.]+\.rs):(\d+)(?:-(\d+))?', m.group(1))]
        for f in {c[0] for c in cites}:
            heads = [h for h, _, _ in functions(cache[f]).get(name, [])]
            if heads and not any(a <= h <= b for h in heads for g, a, b in cites if g == f):
                bad.append('%s: %s cites %s, but fn %s is at %s' % (os.path.basename(p), m.group(2), cites, name, heads))
            else: good += 1
print('%d comparisons agree, %d do not' % (good, len(bad)))
for x in bad: print(x)
sys.exit(1 if bad else 0)
