import zlib,random
def obj(d): return b"blob %d\0"%len(d)+d
hits=[]
for A in range(244,251):
  for seed in range(60):
    random.seed(A*1000+seed)
    d=bytes(random.choices(range(A),k=17000))
    c=zlib.compressobj(1); z=c.compress(obj(d))+c.flush()
    o=zlib.decompressobj(); out=o.decompress(z[:8192],8192)
    if len(out)==8192 and not o.unconsumed_tail: hits.append((A,seed)); print(A,seed,len(z))
print(hits)
