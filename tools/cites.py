#!/usr/bin/env python3
"""Check that every `file.py:a-b `name`` citation in the model points at lines containing `def name` (or the name)."""
import re,glob,os
files={os.path.basename(f):open(f).read().split('\n') for f in glob.glob('/repo/templatefitter/**/*.py',recursive=True) if not f.endswith('__init__.py')}
for lf in sorted(glob.glob('/verif/lean/Verif/Model/*.lean')):
    src=open(lf).read()
    for d in re.finditer(r'/--(.*?)-/\s*(?:@\[.*?\]\s*)?(def|structure|inductive|abbrev|instance)\s*(\S+)',src,re.S):
        doc=d.group(1)
        cites=re.findall(r'([a-z_0-9]+\.py):(\d+)(?:-(\d+))?(?:[, ]+\d+-\d+)*(?:[^`]{0,30})`?([A-Za-z_0-9.]*)`?',doc)
        for f,a,b,name in cites:
            if f not in files: print(lf,d.group(3),'NOFILE',f);continue
            a=int(a);b=int(b or a)
            seg='\n'.join(files[f][a-1:b])
            nm=name.split('.')[-1]
            if b>len(files[f]): print(os.path.basename(lf),d.group(3),'PAST END',f,a,b)
            elif nm and nm not in seg and ('def '+nm) not in seg:
                # find
                loc=[i+1 for i,l in enumerate(files[f]) if 'def '+nm+'(' in l]
                print(os.path.basename(lf),d.group(3),f,a,b,nm,'actual',loc)
            else:
                loc=[i+1 for i,l in enumerate(files[f]) if 'def '+nm+'(' in l]
                if nm and loc and not any(a<=x<=b for x in loc): print(os.path.basename(lf),d.group(3),f,a,b,nm,'(mention only) actual',loc)
