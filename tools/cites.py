#!/usr/bin/env python3
"""Check the citations of the Lean sources: files exist, ranges lie in them, and a range cited right after a name in backquotes contains it."""
import re, os, glob
R = '/repo'
pat = re.compile(r'((?:src|include|example|test)/[\w/.\-]+\.(?:cpp|hpp|txt))((?::[\d]+(?:-\d+)?(?:, ?\d+(?:-\d+)?)*)?)')
named = re.compile(r'`([^`]+)`\s*\(((?:src|include|example|test)/[\w/.\-]+\.(?:cpp|hpp)):(\d+)(?:-(\d+))?')
lines = {}
def load(f):
    if f not in lines:
        p = os.path.join(R, f)
        if not os.path.exists(p):
            hits = glob.glob(R + '/**/' + os.path.basename(f), recursive=True)
            p = hits[0] if len(hits) == 1 else None
        lines[f] = open(p, errors='replace').read().split('\n') if p else None
    return lines[f]
n = bad = 0
for p in sorted(glob.glob('lean/Verif/**/*.lean', recursive=True)):
    s = open(p).read()
    for m in pat.finditer(s):
        n += 1
        L = load(m[1]); where = f"{p}:{s[:m.start()].count(chr(10))+1}"
        if L is None: print(where, 'no file', m[1]); bad += 1; continue
        for a, b in re.findall(r'(\d+)(?:-(\d+))?', m[2]):
            a = int(a); b = int(b or a)
            if not (1 <= a <= b <= len(L)): print(where, 'range', m[0], len(L)); bad += 1
    for m in named.finditer(s):
        L = load(m[2])
        if L is None: continue
        a = int(m[3]); b = int(m[4] or a)
        words = re.findall(r'[A-Za-z_]\w+', m[1])
        # the range itself, or for a part of a function the lines from the start of the enclosing definition (a `{` in an outer column)
        i = a - 1
        while i > 0 and not re.match(r' {0,8}\{\s*$', L[i-1]): i -= 1
        cur = len(L[i-1]) - len(L[i-1].lstrip()) if i else 0
        while i > 0 and cur > 4:
            j = i - 1
            while j > 0 and not (re.match(r' *\{\s*$', L[j-1]) and len(L[j-1]) - len(L[j-1].lstrip()) < cur): j -= 1
            i = j; cur = len(L[i-1]) - len(L[i-1].lstrip()) if i else 0
        text = '\n'.join(L[max(0, i-8):b])
        if words and not any(re.search(r'\b' + re.escape(w) + r'\b', text) for w in words[-2:] + words[:2]):
            print(f"{p}:{s[:m.start()].count(chr(10))+1}", 'name', m[1][:50], f"{m[2]}:{a}-{b}"); bad += 1
print(n, 'citations,', bad, 'to look at')
