"""Write MANIFEST.json from claims.txt and check that every named theorem exists."""
import json, pathlib, re, sys

root = pathlib.Path(__file__).resolve().parent.parent
src = "\n".join(p.read_text() for p in (root / "lean/Verif").rglob("*.lean"))
names = set(re.findall(r"^\s*(?:private )?theorem\s+([^\s:({\[]+)", src, re.M))
props = {json.loads(l)["id"] for l in (root / "properties.jsonl").read_text().splitlines()}
claims = []
for line in (root / "tools/claims.txt").read_text().splitlines():
    if not line.strip() or line.startswith("#"):
        continue
    pid, status, thms, note = [x.strip() for x in line.split("|", 3)]
    assert pid in props, pid
    assert status in ("proved", "partial", "not_applicable"), status
    thms = thms.split()
    for t in thms:
        if t.split(".", 1)[1] not in names:
            sys.exit(f"no theorem {t}")
    claims.append({"property": pid, "status": status, "theorems": thms, "note": note})
have = {c["property"] for c in claims}
print("missing:", sorted(props - have))
(root / "MANIFEST.json").write_text(json.dumps({"claims": claims}, indent=1) + "\n")
