#!/usr/bin/env python3
# usage: addprop.py id title statement quantifier why anchor...
import sys,json
i,t,s,q,w,*a=sys.argv[1:]
open('/verif/properties.jsonl','a').write(json.dumps({"id":i,"title":t,"statement":s,"quantifier":q,"why_tests_cant":w,"anchors":a},ensure_ascii=False)+"\n")
