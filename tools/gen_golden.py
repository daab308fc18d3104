"""Extracts the expected byte arrays of the unit tests in writer/mod.rs into Verif/Tests/GoldenData.lean."""
import re
src=open('/repo/tsfile-writer/src/writer/mod.rs').read()
names=['write_file_test_4','write_multiple_types','write_datapoint_int32','write_datapoint_int64','write_datapoint_float','write_datapoint_int32_1000','write_i64_snappy','write_i64_ts2diff','write_i32_ts2diff','write_snappy_complex']
out=['/-! Expected bytes of the unit tests of `writer/mod.rs` (generated by `tools/gen_golden.py`). -/\n','namespace TsFile.Golden\n']
for n in names:
    i=src.index('fn %s('%n); j=src.index('[',i); k=src.index('];',j)
    body=re.sub(r'//.*','',src[j+1:k])
    nums=[int(x,0) for x in body.replace('\n',' ').split(',') if x.strip()]
    out.append('/-- `%s` in `writer/mod.rs`. -/\ndef %s : List UInt8 := ['%(n,n))
    for a in range(0,len(nums),24): out.append('  '+', '.join(map(str,nums[a:a+24]))+(',' if a+24<len(nums) else ']'))
    out.append('')
out.append('end TsFile.Golden')
open('/verif/lean/Verif/Tests/GoldenData.lean','w').write('\n'.join(out)+'\n')
