import hashlib
def pts(n): return [int(hashlib.sha1((n+"/"+str(i)).encode()).hexdigest()[:8],16) for i in range(200)]
def wrap(xs):
    out=[];line="  "
    for x in xs:
        t=str(x)+", "
        if len(line)+len(t)>98: out.append(line.rstrip()); line="  "
        line+=t
    out.append(line.rstrip().rstrip(','))
    return "\n".join(out)
print('''import Verif.Lemmas.RingEval
/-! The points of a few servers under the real SHA-1, as literals checked by the kernel
(generated by tools/ringdata.py). -/

namespace Verif
namespace Pool

set_option maxRecDepth 100000
''')
for n in ["a","b","c","mc122","mc551"]:
    print(f'''/-- SHA-1 points of the server named "{n}". -/
def hashes_{n} : List Nat := [
{wrap(pts(n))}]

theorem serverNodes_{n} : serverNodes realHashes id b!"{n}" = hashes_{n}.map (fun h => ⟨b!"{n}", h⟩) := by
  decide +kernel
''')
print('''end Pool
end Verif''')
