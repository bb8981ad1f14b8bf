#!/usr/bin/env python3
"""Seeded-bug runs.  usage: mutate.py muts.json
Each entry: {"file": "Verif/X/Model.lean", "old":..., "new":..., "definition":..., "claim":..., "target": "Verif.X.Props"}.
Works in a scratch copy (/tmp/mut) and appends one line per entry to /verif/seeded/LOG.jsonl."""
import json,subprocess,sys,re,os
SC="/tmp/mut"
def sh(c,**k): return subprocess.run(c,shell=True,capture_output=True,text=True,**k)
sh(f"rm -rf {SC} && cp -a /verif/lean {SC}")
muts=json.load(open(sys.argv[1]))
for t in sorted({m["target"] for m in muts}):
    r=sh(f"cd {SC} && timeout 1500 lake build {t}")
    if "Build completed successfully" not in r.stdout+r.stderr: sys.exit("baseline does not build: "+t)
for m in muts:
    f=os.path.join(SC,m["file"])
    src=open(f).read()
    if src.count(m["old"])!=1:
        print("BAD MATCH",src.count(m["old"]),m["definition"],m["old"]); continue
    open(f,"w").write(src.replace(m["old"],m["new"]))
    r=sh(f"cd {SC} && timeout 1500 lake build {m['target']}")
    out=r.stdout+r.stderr
    failed=[];infra=[]
    for g in re.finditer(r"error: (?:\S*/)?(Verif/\S+?\.lean):(\d+):(\d+): (.*)",out):
        lines=open(os.path.join(SC,g.group(1))).read().split("\n")
        i=int(g.group(2))-1
        name=None
        for k in range(i,-1,-1):
            q=re.match(r"(?:private |noncomputable |@\[.*?\] )*(theorem|lemma|example|def|instance|abbrev)\s*(\S*)",lines[k])
            if q: name=(q.group(2) if q.group(1) in("theorem","lemma","def") else f"{q.group(1)} at {g.group(1)}:{k+1}"); break
        if g.group(1)==m["file"]: infra.append(g.group(4))
        if name and name not in failed: failed.append(name)
    open(f,"w").write(src)
    blocked=sorted(set(re.findall(r"- (Verif\.\S+)",out)))
    ok = "Build completed successfully" in out
    print(("SURVIVED " if ok else "killed   ")+m["definition"],"|",m["edit"] if "edit" in m else "", "|",failed[:6],infra[:2])
    # theorems may be in the same file: only an error in the edited definition itself makes the attempt worthless
    if infra and (not failed or m["definition"].split(".")[-1] in failed): print("   !! model file does not compile:",infra[:2]); continue
    e={"definition":m["definition"],"edit":m.get("edit") or f"{m['old']} -> {m['new']}","claim":m["claim"],
       "theorems_failed":failed,"survived":ok,"theorems_tightened":m.get("tightened",[]),"note":m.get("note","")}
    open("/verif/seeded/LOG.jsonl","a").write(json.dumps(e)+"\n")
