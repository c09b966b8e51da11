# Decodes the two images of test-projects/basic, one line of r,g,b,a per row of pixels, an F before each frame.
import zlib,struct,sys
def png(p):
    d=open(p,'rb').read(); i=8; idat=b''; plte=None; trns=None
    while i<len(d):
        n,=struct.unpack('>I',d[i:i+4]); t=d[i+4:i+8]; c=d[i+8:i+8+n]; i+=12+n
        if t==b'IHDR': w,h,bd,ct,_,_,il=struct.unpack('>IIBBBBB',c)
        if t==b'IDAT': idat+=c
        if t==b'PLTE': plte=[tuple(c[k:k+3]) for k in range(0,len(c),3)]
        if t==b'tRNS': trns=c
    raw=zlib.decompress(idat)
    ch={0:1,2:3,3:1,4:2,6:4}[ct]; bpp=max(1,ch*bd//8); st=(w*ch*bd+7)//8
    rows=[];prev=bytes(st);k=0
    for y in range(h):
        f=raw[k]; line=bytearray(raw[k+1:k+1+st]); k+=1+st
        for x in range(st):
            a=line[x-bpp] if x>=bpp else 0; b=prev[x]; c=prev[x-bpp] if x>=bpp else 0
            if f==1: line[x]=(line[x]+a)&255
            elif f==2: line[x]=(line[x]+b)&255
            elif f==3: line[x]=(line[x]+(a+b)//2)&255
            elif f==4:
                q=a+b-c; pa,pb,pc=abs(q-a),abs(q-b),abs(q-c)
                pr=a if pa<=pb and pa<=pc else (b if pb<=pc else c)
                line[x]=(line[x]+pr)&255
        prev=bytes(line)
        px=[]
        for x in range(w):
            if ct==3:
                per=8//bd; v=(line[x//per]>>((per-1-x%per)*bd))&((1<<bd)-1)
                r,g,b=plte[v]; al=trns[v] if trns and v<len(trns) else 255
                px.append((r,g,b,al))
            elif ct==6: px.append(tuple(line[4*x:4*x+4]))
            elif ct==2: px.append(tuple(line[3*x:3*x+3])+(255,))
            elif ct==0:
                per=8//bd; v=(line[x//per]>>((per-1-x%per)*bd))&((1<<bd)-1)
                v=v*255//((1<<bd)-1); px.append((v,v,v,255))
            else: raise Exception
        rows.append(px)
    return [rows]
def gif(p):
    d=open(p,'rb').read()
    w,h,fl,bg,_=struct.unpack('<HHBBB',d[6:13]); i=13; gct=None
    if fl&0x80:
        n=2<<(fl&7); gct=[tuple(d[i+3*k:i+3*k+3]) for k in range(n)]; i+=3*n
    canvas=[[(0,0,0,0)]*w for _ in range(h)]; frames=[]; tr=None; disp=0
    while d[i]!=0x3b:
        if d[i]==0x21:
            lab=d[i+1]; i+=2
            if lab==0xf9:
                f=d[i+1]; disp=(f>>2)&7; tr=d[i+4] if f&1 else None
            while d[i]: i+=d[i]+1
            i+=1
        elif d[i]==0x2c:
            x0,y0,fw,fh,f=struct.unpack('<HHHHB',d[i+1:i+10]); i+=10; ct=gct
            if f&0x80:
                n=2<<(f&7); ct=[tuple(d[i+3*k:i+3*k+3]) for k in range(n)]; i+=3*n
            mcs=d[i]; i+=1; data=b''
            while d[i]: data+=d[i+1:i+1+d[i]]; i+=d[i]+1
            i+=1
            clear=1<<mcs; end=clear+1; cs=mcs+1; table={k:bytes([k]) for k in range(clear)}; nxt=end+1
            out=b''; prev=None; bitpos=0
            while True:
                v=0
                for b in range(cs):
                    v|=((data[(bitpos+b)>>3]>>((bitpos+b)&7))&1)<<b
                bitpos+=cs
                if v==clear: cs=mcs+1; table={k:bytes([k]) for k in range(clear)}; nxt=end+1; prev=None; continue
                if v==end: break
                if prev is None: e=table[v]
                else:
                    e=table[v] if v in table else prev+prev[:1]
                    if nxt<4096:
                        table[nxt]=prev+e[:1]; nxt+=1
                        if nxt==(1<<cs) and cs<12: cs+=1
                out+=e; prev=e
            old=[r[:] for r in canvas]
            for y in range(fh):
                for x in range(fw):
                    v=out[y*fw+x]
                    if v!=tr: canvas[y0+y][x0+x]=ct[v]+(255,)
            frames.append([r[:] for r in canvas])
            if disp==2:
                for y in range(fh):
                    for x in range(fw): canvas[y0+y][x0+x]=(0,0,0,0)
            if disp==3: canvas=old
            tr=None;disp=0
        else: raise Exception(hex(d[i]))
    return frames
def dump(fr,out):
    with open(out,'w') as f:
        for rows in fr:
            f.write("F\n")
            for r in rows: f.write(" ".join("%d,%d,%d,%d"%c for c in r)+"\n")
g=gif('/repo/test-projects/basic/images/icon.gif'); e=png('/repo/test-projects/basic/images/eyecatch.png')

dump(g,sys.argv[1]+'/icon.txt'); dump(e,sys.argv[1]+'/eye.txt')
