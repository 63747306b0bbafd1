lean/.lake
