import json,sys
def add(id,title,statement,quantifier,why,anchors):
    P="/verif/properties.jsonl"
    L=[json.loads(l) for l in open(P)]
    L=[x for x in L if x["id"]!=id]
    L.append(dict(id=id,title=title,statement=statement,quantifier=quantifier,why_tests_cant=why,anchors=anchors))
    L.sort(key=lambda x:int(x["id"][1:]))
    with open(P,"w") as f:
        for x in L: f.write(json.dumps(x,ensure_ascii=False)+"\n")
