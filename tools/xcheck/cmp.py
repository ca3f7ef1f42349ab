g=open('got.txt').read().split('\n'); e=open('expect.txt').read().split('\n'); c=open('cases.txt').read().split('\n')
import zlib
for i,(a,b) in enumerate(zip(g,e)):
    if a!=b:
        A=a.split('; ');B=b.split('; ')
        k=next(j for j in range(min(len(A),len(B))) if A[j]!=B[j])
        op=c[i].split('|')[1].split()[k]
        mx=int(op.split(',')[2]); o=B[k].split()[0]
        z=bytes.fromhex(c[i].split('|')[0])
        try: zlib.decompress(z); m='ok'
        except zlib.error as x: m=str(x)
        print(i,'exact' if o!='-' and len(o)//2==mx else 'OTHER',A[k][:30],'|',m)
