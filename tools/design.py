"""Refresh the table of outcomes in DESIGN.md from properties.jsonl and claims.txt."""
import json, pathlib

root = pathlib.Path(__file__).resolve().parent.parent
titles = {}
for line in (root / "properties.jsonl").read_text().splitlines():
    p = json.loads(line)
    titles[p["id"]] = p["title"]
rows = ["| id | property | outcome | theorems | what is missing, restricted or false |", "|---|---|---|---|---|"]
for line in (root / "tools/claims.txt").read_text().splitlines():
    if not line.strip() or line.startswith("#"):
        continue
    pid, status, thms, note = [x.strip() for x in line.split("|", 3)]
    names = ", ".join("`" + t.split(".", 1)[1] + "`" for t in thms.split())
    rows.append(f"| {pid} | {titles[pid]} | {status} | {names} | {note} |")
path = root / "DESIGN.md"
text = path.read_text()
begin, end = "<!-- outcomes -->\n", "<!-- end of outcomes -->\n"
i, j = text.index(begin) + len(begin), text.index(end)
path.write_text(text[:i] + "\n".join(rows) + "\n" + text[j:])
