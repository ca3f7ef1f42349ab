import zlib
def lit(b):
    if b<144: v,n=0x30+b,8
    else: v,n=0x190+b-144,9
    return [(v>>(n-1-i))&1 for i in range(n)]
hdr=b"blob 16371\0"
data=b"\0"*16371
x=hdr+data
bits=[1,1,0]
for b in hdr+b"\0"*(8188-11): bits+=lit(b)
bits+=[0,0,0,0,0,1,0]+[0]*5   # len 4, dist 1
for b in x[8192:]: bits+=lit(b)
bits+=[0]*7
while len(bits)%8: bits.append(0)
by=bytes(sum(bits[8*i+j]<<j for j in range(8)) for i in range(len(bits)//8))
z=b"\x78\x01"+by+zlib.adler32(x).to_bytes(4,'big')
assert zlib.decompress(z)==x
from itertools import groupby
print([(hex(k),len(list(g))) for k,g in groupby(z)], len(z))
o=zlib.decompressobj(); r=o.decompress(z[:8192],8192); print(len(r),len(o.unconsumed_tail))
