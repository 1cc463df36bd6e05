#!/usr/bin/env python3
# Writes MANIFEST.json from the table below; properties without entry are omitted.
import json
C = {}
def c(pid, status, theorems, note=""):
    C[pid] = dict(property=pid, status=status, theorems=theorems, note=note)
N="Libube."
c("C01","partial",[N+"Ind.complement_involution_partial",N+"Ind.complement_max_undefined",N+"Ind.complement_wrapping",N+"Ind.reference_index_recovered"],
  "Holds for every value but the largest, where -(x+1) is signed overflow; the smallest value cannot be complemented twice.")
c("C02","proved",[N+"Alloc.allocSize_least_pow2",N+"Alloc.capacity_of_history",N+"Alloc.resize_no_realloc_if_fits"],"")
c("C03","proved",[N+"Utf8.len_counts_code_points"],"")
c("C04","proved",[N+"Utf8.len_eq_iff",N+"Utf8.len_neg_iff",N+"Utf8.len_total"],"")
exec(open(__file__.replace("gen_manifest.py","manifest_entries.py")).read())
json.dump({"claims":[C[k] for k in sorted(C)]}, open(__file__.replace("tools/gen_manifest.py","MANIFEST.json"),"w"), indent=1)
print(len(C))
