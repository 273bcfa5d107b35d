import json
C=[json.loads(l)["id"] for l in open("/verif/properties.jsonl")]
M={}
def put(c,status,thms,note): M[c]=dict(property=c,status=status,theorems=thms,note=note)
put("C01","proved",["Bf.C01_returns","Bf.C01_first_match","Bf.C01_rule_decides"],"on the flat image of every compiled chain, all hooks")
put("C02","proved",["Bf.C02_goes_on","Bf.C02_never_decides","Bf.C02_removal"],"")
put("C03","proved",["Bf.C03_counters","Bf.C03_history"],"per packet and over any history on one processor; the counters map is per CPU")
put("C04","proved",["Bf.C04_unreadable","Bf.C04_unreadable_ethernet","Bf.C04_unreadable_network"],"")
put("C17","proved",["Bf.C17_codes","Bf.C17_policy","Bf.C17_rule","Bf.C17_policy_rejected","Bf.C17_policy_valid"],"")
put("C18","proved",["Bf.C18_value","Bf.C18_mark","Bf.C18_final","Bf.C18_unreadable","Bf.C18_matcher"],"")
put("C24","proved",["Bf.CHash.C24_hashset_faithful","Bf.CHash.C24_add_succeeds"],"")
put("C25","proved",["Bf.CVec.C25_vector_faithful","Bf.CVec.C25_add_succeeds"],"")
put("C26","proved",["Bf.CList.C26_list_faithful"],"")
put("C36","partial",["Bf.C36_catch_all_partial","Bf.C36_unreadable","Bf.C36_fails_nexthdr"],"false of the code when the added rule is the first ip6.nexthdr rule of the chain (witness C36_fails_nexthdr); proved otherwise")
exec(open('/verif/tools/claims_more.py').read()) if __import__('os').path.exists('/verif/tools/claims_more.py') else None
json.dump({"claims":[M.get(c,{"property":c,"status":"partial","theorems":[],"note":"planned"}) for c in C]},open('/verif/MANIFEST.json','w'),indent=1,ensure_ascii=False)
