#!/usr/bin/env python3
"""List the functions of /repo/src/wax that no model definition cites (by line range)."""
import ast, pathlib, re, collections
root = pathlib.Path(__file__).resolve().parent.parent
cited = collections.defaultdict(set)
for f in (root/"lean/Verif/Model").glob("*.lean"):
    t = f.read_text()
    for c in re.findall(r"/-[-!].*?-/", t, re.S):
        cur = None
        c = re.sub(r"\s+", " ", c)
        for m in re.finditer(r"((?:src/wax/)?[\w/]+\.py)|(\d+)-(\d+)|(?<=[:, ])(\d+)(?=[,:;. )])", c):
            if m.group(1):
                n = m.group(1)
                cur = n
            elif cur:
                a = int(m.group(2) or m.group(4)); b = int(m.group(3) or m.group(4))
                if b - a < 1200: cited[cur].update(range(a, b + 1))
def lines(rel):
    s = set()
    for k, v in cited.items():
        k2 = k.replace("src/wax/", "")
        if rel == k2 or rel.endswith("/" + k2): s |= v
    return s
tot = miss = 0
src = pathlib.Path("/repo/src/wax")
for f in sorted(src.rglob("*.py")):
    rel = str(f.relative_to(src))
    if rel.endswith("_test.py"): continue
    L = lines(rel)
    out = []
    for node in ast.walk(ast.parse(f.read_text())):
        if isinstance(node, (ast.FunctionDef,)):
            tot += 1
            body = set(range(node.lineno, node.end_lineno + 1))
            if not (body & L):
                miss += 1; out.append(f"{node.name}:{node.lineno}-{node.end_lineno}")
    if out: print(rel, " ".join(out))
print(tot, miss)
