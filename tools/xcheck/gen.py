import zlib, random, json
random.seed(int(__import__('sys').argv[1]))
N=int(__import__('sys').argv[2])
def content():
    k=random.randrange(6)
    n=random.choice([0,1,2,5,20,60,150,400])
    if k==0: return bytes(random.randrange(256) for _ in range(n))
    if k==1: return bytes(random.choice(b'ab') for _ in range(n))
    if k==2: return b'the quick brown fox '*(n//10+1)
    if k==3: return bytes([random.randrange(256)])*n
    if k==4: return b''.join(b'tree %040x\n'%random.getrandbits(160) for _ in range(n//40+1))
    return bytes(random.choice(b'abcdefghijklmnopqrstuvwxyz     \n') for _ in range(n))
def comp(d):
    lv=random.choice([0,1,6,9]); strat=random.choice([0,0,1,2,3,4]); 
    c=zlib.compressobj(lv,8,random.choice([9,12,15]),random.choice([1,8,9]),strat)
    out=b''; i=0
    while i<len(d):
        n=random.randrange(1,len(d)+1); out+=c.compress(d[i:i+n]); i+=n
        if random.random()<.3: out+=c.flush(random.choice([zlib.Z_SYNC_FLUSH,zlib.Z_FULL_FLUSH, zlib.Z_PARTIAL_FLUSH if hasattr(zlib,'Z_PARTIAL_FLUSH') else zlib.Z_SYNC_FLUSH]))
    return out+c.flush()
with open('cases.txt','w') as f, open('expect.txt','w') as g:
    for t in range(N):
        d=content(); z=bytearray(comp(d)); 
        if random.random()<.35 and z:
            for _ in range(random.choice([1,1,2,5])):
                i=random.randrange(len(z)); z[i]^=1<<random.randrange(8)
        if random.random()<.1: z=z[:random.randrange(len(z)+1)]
        if random.random()<.05: z=bytearray([0x78,0x9c])+bytearray(random.randrange(256) for _ in range(60))
        z=bytes(z)+bytes(random.randrange(256) for _ in range(random.choice([0,0,3,20])))
        # ops: like the reader: feed windows, limited
        dec=zlib.decompressobj(); pos=0; ops=[]; res=[]
        mode=random.randrange(3)
        for _ in range(random.choice([1,3,8])):
            w=random.choice([1,2,8,8,20,100,1000]); mx=random.choice([0,1,2,3,8,50,258,600])
            if dec.unconsumed_tail and random.random()<.9:
                pos-=len(dec.unconsumed_tail)
            win=z[pos:pos+w]; a=pos; pos+=len(win)
            ops.append((a,len(win),mx))
            try:
                o=dec.decompress(win,mx); res.append("%s %d %d %d"%(o.hex() or '-',len(dec.unconsumed_tail),len(dec.unused_data),int(dec.eof)))
            except zlib.error as e:
                res.append('error')
        f.write(z.hex()+"|"+" ".join("%d,%d,%d"%o for o in ops)+"\n")
        g.write("; ".join(res)+"\n")
