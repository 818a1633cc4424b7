MASK=(1<<32)-1
def T(x):
    x^=(x<<13)&MASK; x^=x>>17; x^=(x<<5)&MASK; return x
def app(M,x):
    r=0
    for i in range(32):
        if x>>i&1: r^=M[i]
    return r
def mul(N,M): return [app(N,c) for c in M]   # N after M
M=[[T(1<<i) for i in range(32)]]
for k in range(31): M.append(mul(M[-1],M[-1]))
assert mul(M[31],M[31])==M[0]
def prod(ks):
    R=M[ks[0]]
    for k in ks[1:]: R=mul(M[k],R)
    return R
def inv(A):
    # columns -> solve B with B*A = I  (left inverse == inverse)
    n=32
    # rows representation of A
    rows=[sum(((A[j]>>i)&1)<<j for j in range(n)) for i in range(n)]
    aug=[rows[i]|(1<<(n+i)) for i in range(n)]
    for c in range(n):
        p=next((r for r in range(c,n) if aug[r]>>c&1),None)
        if p is None: return None
        aug[c],aug[p]=aug[p],aug[c]
        for r in range(n):
            if r!=c and aug[r]>>c&1: aug[r]^=aug[c]
    irows=[a>>n for a in aug]
    return [sum(((irows[i]>>j)&1)<<i for i in range(n)) for j in range(n)]
I=[1<<i for i in range(32)]
cases=[]
for step in (16,8,4,2,1):
    # exponents: S = sum 2^(2*step*i), compare T^(S*2^step) with T^S
    ks=list(range(0,32,2*step)); hi=[k+step for k in ks]
    A=prod(hi); B=prod(ks)
    D=[a^b for a,b in zip(A,B)]
    V=inv(D); assert V, step
    assert mul(V,D)==I
    cases.append((step,A,B,V))
print("ok",[c[0] for c in cases])
out=[]
def lit(M): return "["+", ".join(str(c) for c in M)+"]"
P=M[0]; stages=[]
for s in (16,8,4,2,1):
    chain=[P]
    for _ in range(s): chain.append(mul(chain[-1],chain[-1]))
    Q=chain[-1]
    D=[a^b for a,b in zip(Q,P)]
    V=inv(D)
    stages.append((s,chain,V))
    P=mul(Q,P)
assert P==I
import textwrap
with open('lean/Verif/XorShiftData.lean','w') as f:
    f.write('''/-!
Powers of the matrix of `xorshift32` (driver/driver.cpp:18-24), as lists of columns.  Nothing is assumed
about these numbers: `Verif/XorShift.lean` checks them.
-/
namespace Ccml.XorShift

''')
    for s,chain,V in stages:
        f.write(f"/-- Each is the square of the one before. -/\ndef chain{s} : List (List Nat) := [\n")
        f.write(",\n".join("\n".join(textwrap.wrap("  "+lit(c),width=110,subsequent_indent="   ",initial_indent="  ")) for c in chain))
        f.write("]\n\n")
        f.write(f"/-- Undoes the sum of the first and the last of `chain{s}`. -/\ndef undo{s} : List Nat :=\n")
        f.write("\n".join(textwrap.wrap(lit(V),width=110,subsequent_indent="   ",initial_indent="  "))+"\n\n")
    f.write("end Ccml.XorShift\n")
