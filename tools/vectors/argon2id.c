/* Argon2id (RFC 9106) and BLAKE2b (RFC 7693), written for the check of the published test vectors.
   usage: argon2id <password hex> <salt hex> <time> <memory KiB> <lanes> <length>  */
#include <stdint.h>
#include <stdio.h>
#include <stdlib.h>
#include <string.h>
typedef uint64_t u64; typedef uint32_t u32; typedef uint8_t u8;

static const u64 IV[8] = {
  0x6a09e667f3bcc908ULL,0xbb67ae8584caa73bULL,0x3c6ef372fe94f82bULL,0xa54ff53a5f1d36f1ULL,
  0x510e527fade682d1ULL,0x9b05688c2b3e6c1fULL,0x1f83d9abfb41bd6bULL,0x5be0cd19137e2179ULL};
static const u8 SIGMA[12][16] = {
 {0,1,2,3,4,5,6,7,8,9,10,11,12,13,14,15},{14,10,4,8,9,15,13,6,1,12,0,2,11,7,5,3},
 {11,8,12,0,5,2,15,13,10,14,3,6,7,1,9,4},{7,9,3,1,13,12,11,14,2,6,5,10,4,0,15,8},
 {9,0,5,7,2,4,10,15,14,1,11,12,6,8,3,13},{2,12,6,10,0,11,8,3,4,13,7,5,15,14,1,9},
 {12,5,1,15,14,13,4,10,0,7,6,3,9,2,8,11},{13,11,7,14,12,1,3,9,5,0,15,4,8,6,2,10},
 {6,15,14,9,11,3,0,8,12,2,13,7,1,4,10,5},{10,2,8,4,7,6,1,5,15,11,9,14,3,12,13,0},
 {0,1,2,3,4,5,6,7,8,9,10,11,12,13,14,15},{14,10,4,8,9,15,13,6,1,12,0,2,11,7,5,3}};
#define R(x,n) (((x)>>(n))|((x)<<(64-(n))))
static void F(u64 h[8], const u8 blk[128], u64 t, int last){
  u64 m[16],v[16]; memcpy(m,blk,128);
  for(int i=0;i<8;i++){v[i]=h[i];v[i+8]=IV[i];}
  v[12]^=t; if(last) v[14]=~v[14];
#define G(a,b,c,d,x,y) v[a]+=v[b]+x;v[d]=R(v[d]^v[a],32);v[c]+=v[d];v[b]=R(v[b]^v[c],24);\
  v[a]+=v[b]+y;v[d]=R(v[d]^v[a],16);v[c]+=v[d];v[b]=R(v[b]^v[c],63);
  for(int r=0;r<12;r++){const u8*s=SIGMA[r];
    G(0,4,8,12,m[s[0]],m[s[1]]) G(1,5,9,13,m[s[2]],m[s[3]]) G(2,6,10,14,m[s[4]],m[s[5]]) G(3,7,11,15,m[s[6]],m[s[7]])
    G(0,5,10,15,m[s[8]],m[s[9]]) G(1,6,11,12,m[s[10]],m[s[11]]) G(2,7,8,13,m[s[12]],m[s[13]]) G(3,4,9,14,m[s[14]],m[s[15]])}
  for(int i=0;i<8;i++) h[i]^=v[i]^v[i+8];
}
static void blake2b(u8*out,int n,const u8*in,size_t len){
  u64 h[8]; memcpy(h,IV,64); h[0]^=0x01010000^n; u64 t=0; u8 b[128];
  while(len>128){t+=128;F(h,in,t,0);in+=128;len-=128;}
  memset(b,0,128);memcpy(b,in,len);t+=len;F(h,b,t,1);memcpy(out,h,n);
}
static void Hp(u8*out,u32 n,const u8*in,size_t len){
  u8*buf=malloc(len+4);memcpy(buf,&n,4);memcpy(buf+4,in,len);
  if(n<=64){blake2b(out,n,buf,len+4);free(buf);return;}
  u8 v[64];blake2b(v,64,buf,len+4);free(buf);memcpy(out,v,32);out+=32;u32 left=n-32;
  while(left>64){u8 w[64];blake2b(w,64,v,64);memcpy(v,w,64);memcpy(out,v,32);out+=32;left-=32;}
  u8 w[64];blake2b(w,left,v,64);memcpy(out,w,left);
}
typedef struct{u64 w[128];} B;
#define M(x,y) ((x)+(y)+2*(u64)(u32)(x)*(u64)(u32)(y))
#define GB(a,b,c,d) a=M(a,b);d=R(d^a,32);c=M(c,d);b=R(b^c,24);a=M(a,b);d=R(d^a,16);c=M(c,d);b=R(b^c,63);
#define P(v0,v1,v2,v3,v4,v5,v6,v7,v8,v9,v10,v11,v12,v13,v14,v15) \
 GB(v0,v4,v8,v12) GB(v1,v5,v9,v13) GB(v2,v6,v10,v14) GB(v3,v7,v11,v15)\
 GB(v0,v5,v10,v15) GB(v1,v6,v11,v12) GB(v2,v7,v8,v13) GB(v3,v4,v9,v14)
static void compress(B*out,const B*x,const B*y,int xor_){
  B r,q; for(int i=0;i<128;i++) r.w[i]=x->w[i]^y->w[i]; q=r;
  for(int i=0;i<8;i++){u64*z=q.w+16*i;P(z[0],z[1],z[2],z[3],z[4],z[5],z[6],z[7],z[8],z[9],z[10],z[11],z[12],z[13],z[14],z[15])}
  for(int i=0;i<8;i++){u64*z=q.w+2*i;P(z[0],z[1],z[16],z[17],z[32],z[33],z[48],z[49],z[64],z[65],z[80],z[81],z[96],z[97],z[112],z[113])}
  for(int i=0;i<128;i++){u64 o=r.w[i]^q.w[i]; out->w[i]=xor_?out->w[i]^o:o;}
}
static int hex(const char*s,u8*o){int n=strlen(s)/2;for(int i=0;i<n;i++){unsigned v;sscanf(s+2*i,"%2x",&v);o[i]=v;}return n;}
int main(int c,char**a){
  u8 pw[512],salt[512]; int pl=hex(a[1],pw), sl=hex(a[2],salt);
  u32 t=atoi(a[3]),m=atoi(a[4]),p=atoi(a[5]),T=atoi(a[6]);
  u8 in[2048],h0[72];int k=0;u32 x;
#define U(v) x=(v);memcpy(in+k,&x,4);k+=4;
  U(p)U(T)U(m)U(t)U(0x13)U(2)U(pl)memcpy(in+k,pw,pl);k+=pl;U(sl)memcpy(in+k,salt,sl);k+=sl;U(0)U(0)
  blake2b(h0,64,in,k);
  u32 mm=4*p*(m/(4*p)),q=mm/p,seg=q/4; B*mem=calloc(mm,sizeof(B));
  for(u32 l=0;l<p;l++)for(u32 j=0;j<2;j++){memcpy(h0+64,&j,4);memcpy(h0+68,&l,4);Hp((u8*)&mem[l*q+j],1024,h0,72);}
  B zero;memset(&zero,0,sizeof zero);
  for(u32 pass=0;pass<t;pass++)for(u32 s=0;s<4;s++)for(u32 l=0;l<p;l++){
    int indep=(pass==0&&s<2); B z,ad; memset(&z,0,sizeof z);
    z.w[0]=pass;z.w[1]=l;z.w[2]=s;z.w[3]=mm;z.w[4]=t;z.w[5]=2;
    u32 start=(pass==0&&s==0)?2:0;
    if(indep&&start){z.w[6]++;compress(&ad,&zero,&z,0);compress(&ad,&zero,&ad,0);}
    for(u32 i=start;i<seg;i++){
      u32 j=s*seg+i, prev=j==0?q-1:j-1; u64 rnd;
      if(indep){ if(i%128==0){z.w[6]++;B tmp;compress(&tmp,&zero,&z,0);compress(&ad,&zero,&tmp,0);} rnd=ad.w[i%128]; }
      else rnd=mem[l*q+prev].w[0];
      u32 J1=(u32)rnd,J2=rnd>>32,rl=(pass==0&&s==0)?l:J2%p; u32 area;
      if(pass==0){ if(s==0) area=i-1; else area=(rl==l)?s*seg+i-1:s*seg-(i==0); }
      else area=(rl==l)?q-seg+i-1:q-seg-(i==0);
      u64 xx=((u64)J1*J1)>>32; xx=((u64)area*xx)>>32; u64 rel=area-1-xx;
      u64 st=(pass==0||s==3)?0:(u64)(s+1)*seg; u32 ref=(st+rel)%q;
      compress(&mem[l*q+j],&mem[l*q+prev],&mem[rl*q+ref],pass>0);
    }}
  B f=mem[q-1];for(u32 l=1;l<p;l++)for(int i=0;i<128;i++)f.w[i]^=mem[l*q+q-1].w[i];
  u8 out[1024];Hp(out,T,(u8*)&f,1024);for(u32 i=0;i<T;i++)printf("%02x",out[i]);puts("");return 0;}
